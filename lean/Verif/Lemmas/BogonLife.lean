import Verif.Lemmas.EnumLife
/-
Reference counts in bogon enumerations.
-/
namespace Loc
open Spec Props

theorem lPush_mem {h h' : Heap} {l l' : List Nat} {i : Nat} (hp : lPush h l i = .ok (h', l')) : ∀ j ∈ l', j ∈ l ∨ j = i := by
  unfold lPush at hp
  cases hf : oFind h l i with
  | error e => rw [hf, lbind_err] at hp; cases hp
  | ok x =>
    obtain ⟨k, f⟩ := x
    rw [hf, lbind_ok] at hp
    simp only at hp
    split at hp
    · cases hp; exact fun j hj => .inl hj
    · split at hp
      · cases hp
      · cases hr : ref h i with
        | error e => rw [hr, lbind_err] at hp; cases hp
        | ok h2 =>
          rw [hr, lbind_ok] at hp
          cases hp
          intro j hj
          rcases List.mem_append.mp hj with hj | hj
          · exact .inl (List.mem_of_mem_take hj)
          · rcases List.mem_cons.mp hj with hj | hj
            · exact .inr hj
            · exact .inl (List.mem_of_mem_drop hj)

/-- References that nobody will drop. -/
def Leaks (l : List Nat) (R : Nat → Nat) (h' : Heap) (l' : List Nat) : Prop :=
  ∃ lost : List Nat, Bal h' l' (fun j => R j + lost.count j) ∧ ∀ i ∈ l', i ∈ l ∨ i ∈ lost

theorem Leaks.refl {h : Heap} {l : List Nat} {R : Nat → Nat} (hb : Bal h l R) : Leaks l R h l :=
  ⟨[], fun j => by simpa using hb j, fun i hi => .inl hi⟩

theorem lSummarizeLoop_safe (last : Addr) : ∀ (fuel : Nat) (start : Addr) (h : Heap) (l : List Nat) (R : Nat → Nat), Bal h l R →
    Safe (lSummarizeLoop last fuel start h l) (fun a => Leaks l R a.1 a.2.1) := by
  intro fuel
  induction fuel with
  | zero => intro start h l R hb; exact trivial
  | succ fuel ih =>
    intro start h l R hb
    rw [lSummarizeLoop]
    split
    · cases commonBits start last with
      | error e => cases e <;> first | exact trivial | exact Leaks.refl hb
      | ok bits =>
        simp only
        cases newNetwork start (if bits = 0 then 1 else bits) with
        | error e => cases e <;> first | exact trivial | exact Leaks.refl hb
        | ok n =>
          simp only
          obtain ⟨a1, a2, a3⟩ := alloc_spec h n
          generalize hi : (alloc h n).2 = i at *
          generalize hh : (alloc h n).1 = h1 at *
          have hb1 : Bal h1 l (fun j => R j + one i j) := fun j => by rw [a1, hb]; beta_reduce; omega
          obtain ⟨ns, hns⟩ := cont_exists (h := h1) (l := l) fun j hj => hb1.pos hj
          obtain ⟨h2, l2, ns2, g1, -, g3, g4, -⟩ := lPush_sim (i := i) hb1 hns (by simp only [one_self]; omega) a2
          have hm := lPush_mem g1
          rw [g1, lbind_ok]
          simp only
          have fin : ∀ (h' : Heap) (l' : List Nat), Leaks l2 (fun j => R j + one i j) h' l' → Leaks l R h' l' := by
            rintro h' l' ⟨lost, b1, b2⟩
            refine ⟨i :: lost, fun j => ?_, fun j hj => ?_⟩
            · have := b1 j
              beta_reduce
              rw [count_cons_one]
              simp only at *
              omega
            · rcases b2 j hj with hj | hj
              · rcases hm j hj with hj | hj
                · exact .inl hj
                · exact .inr (by simp [hj])
              · exact .inr (List.mem_cons_of_mem _ hj)
          split
          · exact fin _ _ (Leaks.refl g3)
          · exact (ih _ _ _ _ g3).mono fun a ha => fin _ _ ha
    · exact Leaks.refl hb

theorem lPushGap_safe (start last : Addr) {h : Heap} {l : List Nat} {R : Nat → Nat} (hb : Bal h l R) :
    Safe (lPushGap start last h l) (fun a => Leaks l R a.1 a.2.1) := by
  unfold lPushGap lSummarize
  split
  · split
    · exact Leaks.refl hb
    · split
      · exact Leaks.refl hb
      · exact lSummarizeLoop_safe _ _ _ _ _ _ hb
  · exact Leaks.refl hb

theorem Leaks.trans {h1 h2 : Heap} {l l1 l2 : List Nat} {R : Nat → Nat} {lost : List Nat} (hb : Bal h1 l1 (fun j => R j + lost.count j)) (hm : ∀ i ∈ l1, i ∈ l ∨ i ∈ lost)
    (h : Leaks l1 (fun j => R j + lost.count j) h2 l2) : Leaks l R h2 l2 := by
  obtain ⟨lost2, b1, b2⟩ := h
  refine ⟨lost ++ lost2, fun j => ?_, fun i hi => ?_⟩
  · rw [b1]; beta_reduce; rw [List.count_append]; omega
  · rcases b2 i hi with hi | hi
    · rcases hm i hi with hi | hi
      · exact .inl hi
      · exact .inr (List.mem_append_left _ hi)
    · exact .inr (List.mem_append_right _ hi)

/-- The results of calls: also what is given out is lost. -/
def LeakNext (l : List Nat) (R : Nat → Nat) (a : LNext × Heap × NetEnum × List Nat) : Prop := Leaks l R a.2.1 (a.1.given ++ a.2.2.2)

theorem lPop_leak {h : Heap} {e : NetEnum} {l st : List Nat} {R : Nat → Nat} (hl : Leaks l R h st) : LeakNext l R (lPop h e st) := by
  cases st with
  | nil => exact hl
  | cons i st => exact hl

theorem lFinishBogons_safe {h : Heap} {e : NetEnum} {st : List Nat} {R : Nat → Nat} (hb : Bal h st R) :
    Safe (lFinishBogons h e st) (LeakNext st R) := by
  unfold lFinishBogons
  have first : Safe (if !allZeroes e.gap6 then lPushGap e.gap6 (addrResetLast .inet6) h st else (pure (h, st, none)) : LRes (Heap × List Nat × Option Nat))
      (fun a => Leaks st R a.1 a.2.1) := by
    split
    · exact lPushGap_safe _ _ hb
    · exact Leaks.refl hb
  refine first.bind ?_
  rintro ⟨h1, st1, r⟩ ⟨lost, b1, b2⟩
  simp only at b1 b2 ⊢
  cases r with
  | some x => exact ⟨lost, b1, b2⟩
  | none =>
    simp only
    refine Safe.bind (P := fun a => Leaks st R a.1 a.2.1) ?_ ?_
    · split
      · exact (lPushGap_safe _ _ b1).mono fun a ha => Leaks.trans b1 b2 ha
      · exact ⟨lost, b1, b2⟩
    · rintro ⟨h2, st2, r⟩ hl
      simp only at hl ⊢
      cases r with
      | some x => exact hl
      | none => exact lPop_leak hl

theorem lPopMatching_mem {f : Filter} {filter : Bool} : ∀ {l : List Nat} {h h' : Heap} {x : Option Nat} {l' : List Nat}, lPopMatching f filter h l = .ok (h', x, l') → ∀ j ∈ l', j ∈ l := by
  intro l
  induction l with
  | nil => intro h h' x l' hp; cases hp; exact fun j hj => hj
  | cons i l ih =>
    intro h h' x l' hp
    rw [lPopMatching] at hp
    cases hd : deref h i with
    | error e => rw [hd, lbind_err] at hp; cases hp
    | ok n =>
      rw [hd, lbind_ok] at hp
      split at hp
      · cases hp; exact fun j hj => List.mem_cons_of_mem _ hj
      · cases hu : unref h i with
        | error e => rw [hu, lbind_err] at hp; cases hp
        | ok h2 =>
          rw [hu, lbind_ok] at hp
          exact fun j hj => List.mem_cons_of_mem _ (ih hp j hj)

theorem lNextRaw_mem {db : Db} {filter : Bool} {h h' : Heap} {e e' : NetEnum} {st st' : List Nat} {r : LNext} (hr : lNextRaw db filter h e st = .ok (r, h', e', st')) :
    ∀ j ∈ st', j ∈ st := by
  unfold lNextRaw at hr
  cases hp : lPopMatching e.filter filter h st with
  | error e => rw [hp, lbind_err] at hr; cases hr
  | ok x =>
    obtain ⟨h1, x, st1⟩ := x
    rw [hp, lbind_ok] at hr
    cases x with
    | some i => cases hr; exact lPopMatching_mem hp
    | none =>
      simp only at hr
      cases hd : lDfsLoop db filter (dfsFuel db e) h1 e with
      | error e => rw [hd, lbind_err] at hr; cases hr
      | ok y => rw [hd, lbind_ok] at hr; cases hr; exact lPopMatching_mem hp

/-- A call on objects alone. -/
theorem lNextRaw_safe {db : Db} {filter : Bool} {h : Heap} {e : NetEnum} {st : List Nat} {R : Nat → Nat} (hb : Bal h st R) :
    Safe (lNextRaw db filter h e st) (fun a => Bal a.2.1 a.2.2.2 (fun j => R j + a.1.given.count j) ∧ ∀ i ∈ a.2.2.2, i ∈ st) := by
  obtain ⟨ns, hns⟩ := cont_exists fun j hj => hb.pos hj
  rcases lNextRaw_sim db filter (e := e) hb hns with ⟨⟨r, h1, e1, st1⟩, b, d1, -, -, -, -, -, d6, -⟩ | ⟨x, d1, -⟩
  · have hm := lNextRaw_mem d1
    rw [d1]
    exact ⟨d6, hm⟩
  · rw [d1]
    exact trivial

theorem lBogonLoop_safe (db : Db) : ∀ (fuel : Nat) (h : Heap) (e : NetEnum) (st : List Nat) (R : Nat → Nat), Bal h st R →
    Safe (lBogonLoop db fuel h e st) (LeakNext st R) := by
  intro fuel
  induction fuel with
  | zero => intro h e st R hb; exact trivial
  | succ fuel ih =>
    intro h e st R hb
    rw [lBogonLoop]
    refine (lNextRaw_safe hb).bind ?_
    rintro ⟨r, h1, e1, st1⟩ ⟨b1, b2⟩
    simp only at b1 b2 ⊢
    cases r with
    | failed left => exact ⟨left.toList, b1, fun i hi => .inl (b2 i hi)⟩
    | done =>
      refine (lFinishBogons_safe (R := R) b1).mono ?_
      rintro a ⟨lost, c1, c2⟩
      exact ⟨lost, c1, fun i hi => (c2 i hi).imp (b2 i) id⟩
    | item i =>
      have b1' : Bal h1 st1 (fun j => R j + one i j) := fun j => by have := b1 j; simp only [count_item] at this; exact this
      have pi : 0 < R i + one i i := by rw [one_self]; omega
      -- going on
      have on : ∀ (h' : Heap) (e' : NetEnum) (st' : List Nat) (lost : List Nat), Bal h' st' (fun j => R j + lost.count j) → (∀ k ∈ st', k ∈ st ∨ k ∈ lost) →
          Safe (lBogonLoop db fuel h' e' st') (LeakNext st R) :=
        fun h' e' st' lost c1 c2 => (ih h' e' st' _ c1).mono fun a ha => Leaks.trans c1 c2 ha
      refine Safe.bind (P := fun _ => True) ((deref_spec (b1'.pos' pi)).mono fun _ _ => trivial) fun n _ => ?_
      obtain ⟨h2, u1, u2, u3⟩ := unref_ok (b1'.pos' pi)
      have b3 : Bal h2 st1 (fun j => R j + ([] : List Nat).count j) := fun j => by
        have := u2 j
        have := b1' j
        simp only [List.count_nil] at *
        omega
      split
      · rw [u1, lbind_ok]
        exact on h2 e1 st1 [] b3 fun k hk => .inl (b2 k hk)
      · split
        · rw [u1, lbind_ok]
          exact on h2 e1 st1 [] b3 fun k hk => .inl (b2 k hk)
        · refine (lPushGap_safe _ _ b1').bind ?_
          rintro ⟨h3, st3, r⟩ ⟨lost, c1, c2⟩
          simp only at c1 c2 ⊢
          obtain ⟨h4, v1, v2, v3⟩ := unref_ok (h := h3) (i := i) (by rw [c1]; beta_reduce; rw [one_self]; omega)
          have c3 : Bal h4 st3 (fun j => R j + lost.count j) := fun j => by
            have := v2 j
            have := c1 j
            simp only at *
            omega
          have c4 : ∀ k ∈ st3, k ∈ st ∨ k ∈ lost := fun k hk => (c2 k hk).imp (b2 k) id
          cases r with
          | some x =>
            simp only
            rw [v1, lbind_ok]
            exact ⟨lost, c3, c4⟩
          | none =>
            simp only
            rw [v1, lbind_ok]
            cases st3 with
            | nil => exact on h4 _ [] lost c3 c4
            | cons b l => exact ⟨lost, c3, c4⟩

theorem lNextBogon_safe (db : Db) (fuel : Nat) {h : Heap} {e : NetEnum} {st : List Nat} {R : Nat → Nat} (hb : Bal h st R) :
    Safe (lNextBogon db fuel h e st) (LeakNext st R) := by
  cases st with
  | nil => exact lBogonLoop_safe db fuel h e [] R hb
  | cons b l => exact Leaks.refl hb


/-! ### Same results -/

def GapRel (h : Heap) (a : Heap × List Nat × Option Nat) (b : Option NetList) : Prop :=
  Keeps h a.1 ∧ match a.2.2, b with
    | none, some ns => Cont a.1 a.2.1 ns
    | some _, none => True
    | _, _ => False

theorem lSummarizeLoop_sim (last : Addr) : ∀ (fuel : Nat) (start : Addr) (h : Heap) (l : List Nat) (ns : NetList) (R : Nat → Nat), Bal h l R → Cont h l ns →
    Sim (lSummarizeLoop last fuel start h l) (orNull (summarizeLoop start last ns fuel)) (GapRel h) := by
  intro fuel
  induction fuel with
  | zero => intro start h l ns R _ _; exact .fail
  | succ fuel ih =>
    intro start h l ns R hb hc
    rw [lSummarizeLoop, summarizeLoop]
    by_cases c : addrCmp start last ≤ 0
    · rw [if_pos c, if_pos c]
      cases commonBits start last with
      | error e => cases e <;> first | exact .fail | exact .ok ⟨.refl _, trivial⟩
      | ok bits =>
        simp only
        rw [show ∀ (f : Nat → Res NetList), ((Except.ok bits : Res Nat) >>= f) = f bits from fun _ => rfl]
        cases newNetwork start (if bits = 0 then 1 else bits) with
        | error e => cases e <;> first | exact .fail | exact .ok ⟨.refl _, trivial⟩
        | ok n =>
          simp only
          rw [show ∀ (f : Network → Res NetList), ((Except.ok n : Res Network) >>= f) = f n from fun _ => rfl]
          obtain ⟨a1, a2, a3⟩ := alloc_spec h n
          generalize hi : (alloc h n).2 = i at *
          generalize hh : (alloc h n).1 = h1 at *
          have hb1 : Bal h1 l (fun j => R j + one i j) := fun j => by rw [a1, hb]; beta_reduce; omega
          obtain ⟨h2, l2, ns2, g1, g2, g3, g4, g5⟩ := lPush_sim (i := i) hb1 (hc.keeps a3) (by simp only [one_self]; omega) a2
          rw [g1, g2, lbind_ok]
          rw [show ∀ (f : NetList → Res NetList), ((Except.ok ns2 : Res NetList) >>= f) = f ns2 from fun _ => rfl]
          have hk : Keeps h h2 := Keeps.trans a3 (.same g4)
          simp only
          by_cases c2 : allOnes n.last = true
          · rw [if_pos c2, if_pos c2]
            exact .ok ⟨hk, g5⟩
          · rw [if_neg c2, if_neg c2]
            exact (ih _ _ _ _ _ g3 g5).mono fun a b hab => ⟨hk.trans hab.1, hab.2⟩
    · rw [if_neg c, if_neg c]
      exact .ok ⟨.refl _, hc⟩

theorem pushGap_eq (start last : Addr) (ns : NetList) :
    pushGap start last ns = if addrCmp start last ≤ 0 then orNull (listSummarize 128 start last ns) else .ok (some ns) := by
  unfold pushGap
  split
  · cases listSummarize 128 start last ns with
    | ok l => rfl
    | error e => cases e <;> rfl
  · rfl

theorem lPushGap_sim (start last : Addr) {h : Heap} {l : List Nat} {ns : NetList} {R : Nat → Nat} (hb : Bal h l R) (hc : Cont h l ns) :
    Sim (lPushGap start last h l) (pushGap start last ns) (GapRel h) := by
  rw [pushGap_eq]
  unfold lPushGap
  by_cases c : addrCmp start last ≤ 0
  · rw [if_pos c, if_pos c]
    unfold lSummarize listSummarize
    by_cases c1 : addrFamily start ≠ addrFamily last
    · rw [if_pos c1, if_pos c1]
      exact .ok ⟨.refl _, trivial⟩
    · rw [if_neg c1, if_neg c1]
      by_cases c2 : addrCmp start last ≥ 0
      · rw [if_pos c2, if_pos c2]
        exact .ok ⟨.refl _, trivial⟩
      · rw [if_neg c2, if_neg c2]
        exact lSummarizeLoop_sim _ _ _ _ _ _ _ hb hc
  · rw [if_neg c, if_neg c]
    exact .ok ⟨.refl _, hc⟩

/-- After an error the stack is not compared. -/
def BogRel (h : Heap) (a : LNext × Heap × NetEnum × List Nat) (b : Next Network × NetEnum) : Prop :=
  Keeps h a.2.1 ∧ Given a.2.1 a.1 b.1 ∧ (b.1 ≠ .failed → ∃ ns, b.2 = { a.2.2.1 with stack := ns } ∧ Cont a.2.1 a.2.2.2 ns)

theorem lPop_sim {h0 h : Heap} {e : NetEnum} {st : List Nat} {ns : NetList} (hk : Keeps h0 h) (hc : Cont h st ns) :
    BogRel h0 (lPop h e st) (popBogon { e with stack := ns }) := by
  cases st with
  | nil =>
    obtain rfl := hc.of_nil
    exact ⟨hk, trivial, fun _ => ⟨[], rfl, hc⟩⟩
  | cons i st =>
    obtain ⟨n, ns, rfl, h1, h2⟩ := hc.uncons
    exact ⟨hk, h1, fun _ => ⟨ns, rfl, h2⟩⟩

theorem lFinishBogons_sim {h : Heap} {e : NetEnum} {st : List Nat} {ns : NetList} {R : Nat → Nat} (hb : Bal h st R) (hc : Cont h st ns) :
    Sim (lFinishBogons h e st) (finishBogons { e with stack := ns }) (BogRel h) := by
  unfold lFinishBogons finishBogons
  simp only
  have half : ∀ (c : Bool) (start last : Addr) (h : Heap) (st : List Nat) (ns : NetList) (R : Nat → Nat), Bal h st R → Cont h st ns →
      Sim (if c then lPushGap start last h st else pure (h, st, none) : LRes (Heap × List Nat × Option Nat)) (if c then pushGap start last ns else .ok (some ns))
        (fun a b => GapRel h a b ∧ ∃ R, Bal a.1 a.2.1 R) := by
    intro c start last h st ns R hb hc
    cases c with
    | false => exact .ok ⟨⟨.refl _, hc⟩, R, hb⟩
    | true =>
      rw [if_pos rfl, if_pos rfl]
      have hs := lPushGap_safe start last hb
      rcases lPushGap_sim start last hb hc with ⟨a, b, e1, e2, e3⟩ | ⟨x, e1, e2⟩
      · rw [e1] at hs ⊢
        rw [e2]
        obtain ⟨lost, hl, -⟩ := hs
        exact .ok ⟨e3, _, hl⟩
      · rw [e1, e2]
        exact .fail
  rcases half (!allZeroes e.gap6) e.gap6 (addrResetLast .inet6) h st ns R hb hc with ⟨⟨h1, st1, r1⟩, b1, e1, e2, ⟨e3, e4⟩, R1, hb1⟩ | ⟨x, e1, e2⟩
  · rw [e1, e2, lbind_ok]
    simp only at e3 e4 hb1 ⊢
    cases r1 with
    | some x =>
      cases b1 with
      | some y => exact e4.elim
      | none => exact .ok ⟨e3, trivial, fun h => absurd rfl h⟩
    | none =>
      cases b1 with
      | none => exact e4.elim
      | some ns1 =>
        simp only
        rcases half (!allZeroes e.gap4) e.gap4 (addrResetLast .inet) h1 st1 ns1 R1 hb1 e4 with ⟨⟨h2, st2, r2⟩, b2, f1, f2, ⟨f3, f4⟩, R2, hb2⟩ | ⟨x, f1, f2⟩
        · rw [f1, f2, lbind_ok]
          simp only at f3 f4 hb2 ⊢
          cases r2 with
          | some x =>
            cases b2 with
            | some y => exact f4.elim
            | none => exact .ok ⟨e3.trans f3, trivial, fun h => absurd rfl h⟩
          | none =>
            cases b2 with
            | none => exact f4.elim
            | some ns2 => exact .ok (lPop_sim (e3.trans f3) f4)
        · rw [f1, f2, lbind_err]
          exact .fail
  · rw [e1, e2, lbind_err]
    exact .fail

theorem BogRel.from {h h1 : Heap} {a : LNext × Heap × NetEnum × List Nat} {b : Next Network × NetEnum} (hk : Keeps h h1) (hr : BogRel h1 a b) : BogRel h a b :=
  ⟨hk.trans hr.1, hr.2⟩

theorem lBogonLoop_sim (db : Db) : ∀ (fuel : Nat) (h : Heap) (e : NetEnum) (st : List Nat) (ns : NetList) (R : Nat → Nat), Bal h st R → Cont h st ns →
    Sim (lBogonLoop db fuel h e st) (bogonLoop db fuel { e with stack := ns }) (BogRel h) := by
  intro fuel
  induction fuel with
  | zero => intro h e st ns R _ _; exact .fail
  | succ fuel ih =>
    intro h e st ns R hb hc
    rw [lBogonLoop, bogonLoop]
    rcases lNextRaw_sim db true (e := e) hb hc with ⟨⟨r, h1, e1, st1⟩, ⟨x, e1'⟩, d1, d2, ns1, d3, d4, d5, d6, d7⟩ | ⟨x, d1, d2⟩
    · rw [d1, d2, lbind_ok]
      simp only at d3 d4 d5 d6 d7 ⊢
      subst d3
      cases r with
      | failed left =>
        cases left with
        | none =>
          cases x with
          | failed => exact .ok ⟨d7, trivial, fun h => absurd rfl h⟩
          | item _ => exact d5.elim
          | done => exact d5.elim
          | failedHeld => exact d5.elim
        | some k =>
          cases x with
          | failedHeld => exact .ok ⟨d7, trivial, fun h => absurd rfl h⟩
          | item _ => exact d5.elim
          | done => exact d5.elim
          | failed => exact d5.elim
      | done =>
        cases x with
        | done => exact (lFinishBogons_sim d6 d4).mono fun a b hab => hab.from d7
        | item _ => exact d5.elim
        | failed => exact d5.elim
        | failedHeld => exact d5.elim
      | item i =>
        cases x with
        | done => exact d5.elim
        | failed => exact d5.elim
        | failedHeld => exact d5.elim
        | item n =>
          have hn : netAt h1 i = some n := d5
          simp only
          have b1 : Bal h1 st1 (fun j => R j + one i j) := fun j => by have := d6 j; simp only [count_item] at this; exact this
          have pi : 0 < R i + one i i := by rw [one_self]; omega
          rw [deref_ok (b1.pos' pi) hn, lbind_ok]
          obtain ⟨h2, u1, u2, u3⟩ := unref_ok (b1.pos' pi)
          have b3 : Bal h2 st1 R := fun j => by
            have := u2 j
            have := b1 j
            simp only at *
            omega
          have skip : Sim (unref h1 i >>= fun h => lBogonLoop db fuel h e1 st1) (bogonLoop db fuel { e1 with stack := ns1 }) (BogRel h) := by
            rw [u1, lbind_ok]
            exact (ih h2 e1 st1 ns1 R b3 (d4.keeps (.same u3))).mono fun a b hab => hab.from (d7.trans (.same u3))
          by_cases c1 : countryCode n = []
          · rw [if_pos c1, if_pos c1]
            exact skip
          · rw [if_neg c1, if_neg c1]
            by_cases c2 : addrCmp (gapOf e1.gap6 e1.gap4 n.family) n.last ≥ 0
            · rw [if_pos c2, if_pos c2]
              exact skip
            · rw [if_neg c2, if_neg c2]
              have hs := lPushGap_safe (gapOf e1.gap6 e1.gap4 n.family) (addrDec n.first) b1
              rcases lPushGap_sim (gapOf e1.gap6 e1.gap4 n.family) (addrDec n.first) b1 d4 with ⟨⟨h3, st3, r3⟩, x3, f1, f2, f3, f4⟩ | ⟨x, f1, f2⟩
              · rw [f1] at hs
                rw [f1, f2, lbind_ok]
                obtain ⟨lost, l1, -⟩ := hs
                simp only at f3 f4 l1 ⊢
                obtain ⟨h4, v1, v2, v3⟩ := unref_ok (h := h3) (i := i) (by rw [l1]; beta_reduce; rw [one_self]; omega)
                have b4 : Bal h4 st3 (fun j => R j + lost.count j) := fun j => by
                  have := v2 j
                  have := l1 j
                  simp only at *
                  omega
                have hk4 := (d7.trans f3).trans (.same v3)
                cases r3 with
                | some y =>
                  cases x3 with
                  | some z => exact f4.elim
                  | none =>
                    simp only
                    rw [v1, lbind_ok]
                    exact .ok ⟨hk4, trivial, fun h => absurd rfl h⟩
                | none =>
                  cases x3 with
                  | none => exact f4.elim
                  | some ns3 =>
                    have f5 : Cont h4 st3 ns3 := Cont.keeps f4 (.same v3)
                    simp only
                    rw [v1, lbind_ok]
                    cases st3 with
                    | nil =>
                      obtain rfl := f5.of_nil
                      exact (ih h4 _ [] [] _ b4 f5).mono fun a b hab => hab.from hk4
                    | cons b l =>
                      obtain ⟨m, ns3, rfl, g1, g2⟩ := f5.uncons
                      exact .ok ⟨hk4, g1, fun _ => ⟨ns3, rfl, g2⟩⟩
              · rw [f1, f2, lbind_err]
                exact .fail
    · rw [d1, d2, lbind_err]
      exact .fail

theorem lNextBogon_sim (db : Db) (fuel : Nat) {h : Heap} {e : NetEnum} {st : List Nat} {ns : NetList} {R : Nat → Nat} (hb : Bal h st R) (hc : Cont h st ns) :
    Sim (lNextBogon db fuel h e st) (nextBogon db fuel { e with stack := ns }) (BogRel h) := by
  cases st with
  | nil =>
    obtain rfl := hc.of_nil
    exact lBogonLoop_sim db fuel h e [] [] R hb hc
  | cons b l =>
    obtain ⟨m, ns, rfl, g1, g2⟩ := hc.uncons
    exact .ok ⟨.refl _, g1, fun _ => ⟨ns, rfl, g2⟩⟩

end Loc
