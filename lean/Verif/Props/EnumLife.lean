import Verif.Lemmas.BogonLife
import Verif.Spec.EnumLife
import Verif.Props.Bogon
/-
C71: the lifetime of networks while networks are cut up and enumerated.
-/
namespace Loc.Props
open Loc Loc.Spec

theorem references_eq (h : Heap) (i : Nat) : references h i = refsOf h i := rfl

theorem deref_pos {h : Heap} {i : Nat} {n : Network} (hd : deref h i = .ok n) : 0 < refsOf h i ∧ netAt h i = some n := by
  unfold deref at hd
  unfold refsOf netAt
  cases e : h[i]? with
  | none => rw [e] at hd; cases hd
  | some p =>
    obtain ⟨m, k⟩ := p
    rw [e] at hd
    simp only at hd ⊢
    split at hd
    · cases hd
    · cases hd
      exact ⟨by omega, rfl⟩

theorem cont_deref {h : Heap} : ∀ {l : List Nat} {ns : List Network}, l.map (deref h) = ns.map .ok ↔ Cont h l ns ∧ ∀ i ∈ l, 0 < refsOf h i := by
  intro l
  induction l with
  | nil =>
    intro ns
    cases ns with
    | nil => simp [Cont]
    | cons n ns => simp [Cont]
  | cons i l ih =>
    intro ns
    cases ns with
    | nil => simp [Cont]
    | cons n ns =>
      rw [List.map_cons, List.map_cons, List.cons.injEq, ih]
      constructor
      · rintro ⟨h1, h2, h3⟩
        obtain ⟨p1, p2⟩ := deref_pos h1
        refine ⟨.cons p2 h2, fun j hj => ?_⟩
        rcases List.mem_cons.mp hj with rfl | hj
        · exact p1
        · exact h3 j hj
      · rintro ⟨h1, h2⟩
        obtain ⟨m, ns', h3, h4, h5⟩ := h1.uncons
        cases h3
        exact ⟨deref_ok (h2 i (by simp)) h4, h5, fun j hj => h2 j (List.mem_cons_of_mem _ hj)⟩

theorem keeps_deref {h h' : Heap} (hk : Keeps h h') {i : Nat} {n : Network} (hd : deref h i = .ok n) (hp : refsOf h i ≤ refsOf h' i) : deref h' i = .ok n := by
  obtain ⟨p1, p2⟩ := deref_pos hd
  exact deref_ok (by omega) (hk _ _ p2)

/-! ## Cutting -/

theorem listRel_out {h h' : Heap} {l : Option (List Nat)} {b : Option NetList} (hr : ListRel h (refsOf h) (h', l) b) :
    (match l with
      | none => b = none ∧ ∀ k, references h' k = references h k
      | some l => (∃ ns, b = some ns ∧ l.map (deref h') = ns.map .ok) ∧ ∀ k, references h' k = l.count k + references h k) ∧
    ∀ k x, deref h k = .ok x → deref h' k = .ok x := by
  obtain ⟨hk, hr⟩ := hr
  cases l with
  | none =>
    cases b with
    | some b => exact hr.elim
    | none =>
      have hr : ∀ j, refsOf h' j = ([] : List Nat).count j + refsOf h j := hr
      refine ⟨⟨rfl, fun k => ?_⟩, fun k x hd => keeps_deref hk hd (by rw [hr]; omega)⟩
      rw [references_eq, references_eq, hr, List.count_nil, Nat.zero_add]
  | some l =>
    cases b with
    | none => exact hr.elim
    | some ns =>
      obtain ⟨hb, hc⟩ := hr
      have hb' : ∀ j, refsOf h' j = l.count j + refsOf h j := hb
      exact ⟨⟨⟨ns, rfl, cont_deref.mpr ⟨hc, fun i hi => Bal.pos hb hi⟩⟩, hb'⟩, fun k x hd => keeps_deref hk hd (by rw [hb']; omega)⟩

theorem orNull_some {x : Res NetList} {ns : NetList} (h : orNull x = .ok (some ns)) : x = .ok ns := by
  unfold orNull at h
  split at h <;> cases h
  rfl

theorem orNull_none {x : Res NetList} (h : orNull x = .ok none) : ∃ e, x = .error (.err e) := by
  unfold orNull at h
  split at h <;> cases h
  exact ⟨_, rfl⟩

/-- C71: cutting a network out of another one accesses no released object.  The list that is returned has one reference to
    each of its networks, and they are those of C06; if there is no list, nothing remains of the attempt.  No other reference
    is taken or dropped, and no network changes. -/
theorem exclude_lifetime {h : Heap} {i j : Nat} {n m : Network} (hi : deref h i = .ok n) (hj : deref h j = .ok m) :
    ∃ h' l, lExclude h i j = .ok (h', l) ∧
      (match l with
        | none => (∃ e, exclude n m = .error (.err e)) ∧ ∀ k, references h' k = references h k
        | some l => (∃ ns, exclude n m = .ok ns ∧ l.map (deref h') = ns.map .ok) ∧ ∀ k, references h' k = l.count k + references h k) ∧
      ∀ k x, deref h k = .ok x → deref h' k = .ok x := by
  obtain ⟨p1, p2⟩ := deref_pos hi
  obtain ⟨q1, q2⟩ := deref_pos hj
  obtain ⟨⟨h', l⟩, b, e1, e2, e3⟩ := lExclude_sim (R := refsOf h) (fun k => by simp) p1 p2 q1 q2
  obtain ⟨f1, f2⟩ := listRel_out e3
  refine ⟨h', l, e1, ?_, f2⟩
  cases l with
  | none =>
    obtain ⟨rfl, f1⟩ := f1
    exact ⟨orNull_none e2, f1⟩
  | some l =>
    obtain ⟨⟨ns, rfl, f0⟩, f1⟩ := f1
    exact ⟨⟨ns, orNull_some e2, f0⟩, f1⟩

/-- C71: the same for the networks of a list. -/
theorem exclude_list_lifetime {fuel : Nat} {h : Heap} {i : Nat} {n : Network} {list : List Nat} {ls : NetList} (hi : deref h i = .ok n)
    (hl : list.map (deref h) = ls.map .ok) :
    (∃ h' l, lExcludeList fuel h i list = .ok (h', l) ∧
      (match l with
        | none => (∃ e, excludeList fuel n ls = .error (.err e)) ∧ ∀ k, references h' k = references h k
        | some l => (∃ ns, excludeList fuel n ls = .ok ns ∧ l.map (deref h') = ns.map .ok) ∧ ∀ k, references h' k = l.count k + references h k) ∧
      ∀ k x, deref h k = .ok x → deref h' k = .ok x) ∨
    ∃ f, lExcludeList fuel h i list = .error (.other f) ∧ excludeList fuel n ls = .error f := by
  obtain ⟨p1, p2⟩ := deref_pos hi
  obtain ⟨q1, q2⟩ := cont_deref.mp hl
  rcases lExcludeList_sim (fuel := fuel) (R := refsOf h) (fun k => by simp) p1 p2 q2 q1 with ⟨⟨h', l⟩, b, e1, e2, e3⟩ | ⟨f, e1, e2⟩
  · left
    obtain ⟨f1, f2⟩ := listRel_out e3
    refine ⟨h', l, e1, ?_, f2⟩
    cases l with
    | none =>
      obtain ⟨rfl, f1⟩ := f1
      exact ⟨orNull_none e2, f1⟩
    | some l =>
      obtain ⟨⟨ns, rfl, f0⟩, f1⟩ := f1
      exact ⟨⟨ns, orNull_some e2, f0⟩, f1⟩
  · right
    refine ⟨f, e1, ?_⟩
    unfold orNull at e2
    split at e2
    · cases e2
    · cases e2
    · cases e2
      assumption

/-! ## Enumerating -/

theorem count_erase_add {l : List Nat} {i : Nat} (hi : i ∈ l) (j : Nat) : (l.erase i).count j + one i j = l.count j := by
  rw [List.count_erase]
  unfold one
  by_cases hj : j = i
  · subst hj
    have := List.count_pos_iff.mpr hi
    simp only [beq_self_eq_true, if_true]
    omega
  · rw [if_neg hj, if_neg (by simpa using fun h' => hj h'.symm)]
    omega

theorem lNext_sim (db : Db) {mode : NetMode} (hm : mode ≠ .bogons) (fuel : Nat) {h : Heap} {e : NetEnum} {st : List Nat} {ns : NetList} {R : Nat → Nat}
    (hb : Bal h st R) (hc : Cont h st ns) : Sim (lNext db mode fuel h e st) (nextOf db mode fuel { e with stack := ns }) (NextRel h R) := by
  cases mode with
  | plain => exact lNextRaw_sim db true hb hc
  | flat => exact lNextFlat_sim db fuel h e st ns R hb hc
  | bogons => exact absurd rfl hm

theorem enum_balance {db : Db} {mode : NetMode} (hm : mode ≠ .bogons) {h0 : Heap} {s : EnumUse} (hr : EnumRun db mode h0 s) :
    Bal s.heap s.stack (fun j => s.held.count j + refsOf h0 j) := by
  induction hr with
  | start f => exact fun j => by simp
  | @step s s' _ hs ih =>
    cases hs with
    | @next fuel r h e stack hr =>
      obtain ⟨ns, hns⟩ := cont_exists fun j hj => ih.pos hj
      rcases lNext_sim db hm fuel (e := s.enum) ih hns with ⟨⟨r', h', e', st'⟩, b, d1, -, -, -, -, -, d6, -⟩ | ⟨x, d1, -⟩
      · rw [hr] at d1
        cases d1
        intro j
        have := d6 j
        simp only [List.count_append] at *
        omega
      · rw [hr] at d1
        cases d1
    | @take i h hi hr =>
      have p : 0 < refsOf s.heap i := by
        rw [ih]
        have := List.count_pos_iff.mpr hi
        simp only
        omega
      obtain ⟨h', e1, e2, -⟩ := ref_ok p
      rw [hr] at e1
      cases e1
      intro j
      have := e2 j
      have := ih j
      simp only [count_cons_one] at *
      omega
    | @release i h hi hr =>
      have p : 0 < refsOf s.heap i := by
        rw [ih]
        have := List.count_pos_iff.mpr hi
        simp only
        omega
      obtain ⟨h', e1, e2, -⟩ := unref_ok p
      rw [hr] at e1
      cases e1
      intro j
      have := e2 j
      have := ih j
      have := count_erase_add hi j
      simp only at *
      omega

/-- C71: whatever a program does with an enumerator of networks (flattened or not), the references to an object are the ones
    of the program, of the stack of the enumerator, and those from before.  No call accesses a released object, not even one
    that fails, and releasing the enumerator leaves exactly the references of the program. -/
theorem enumeration_lifetime {db : Db} {mode : NetMode} (hm : mode ≠ .bogons) {h0 : Heap} {s : EnumUse} (hr : EnumRun db mode h0 s) :
    (∀ k, references s.heap k = s.stack.count k + s.held.count k + references h0 k) ∧
    (∀ fuel, lNext db mode fuel s.heap s.enum s.stack ≠ .error .freed) ∧
    (∀ i ∈ s.held, (∃ n, deref s.heap i = .ok n) ∧ (∃ h, ref s.heap i = .ok h) ∧ ∃ h, unref s.heap i = .ok h) ∧
    ∃ h, lEnumFree s.heap s.stack = .ok h ∧ ∀ k, references h k = s.held.count k + references h0 k := by
  have hb := enum_balance hm hr
  refine ⟨fun k => ?_, fun fuel => ?_, fun i hi => ?_, ?_⟩
  · rw [references_eq, references_eq, hb k]
    simp only
    omega
  · obtain ⟨ns, hns⟩ := cont_exists fun j hj => hb.pos hj
    rcases lNext_sim db hm fuel (e := s.enum) hb hns with ⟨a, b, d1, -⟩ | ⟨x, d1, -⟩ <;> rw [d1] <;> simp
  · have p : 0 < refsOf s.heap i := by
      rw [hb]
      have := List.count_pos_iff.mpr hi
      simp only
      omega
    obtain ⟨ns, hns⟩ := cont_exists (l := [i]) fun j hj => by rw [List.mem_singleton] at hj; subst hj; exact p
    obtain ⟨n, -, -, hn, -⟩ := hns.uncons
    obtain ⟨h1, r1, -⟩ := ref_ok p
    obtain ⟨h2, r2, -⟩ := unref_ok p
    exact ⟨⟨n, deref_ok p hn⟩, ⟨h1, r1⟩, ⟨h2, r2⟩⟩
  · obtain ⟨h, e1, e2, -⟩ := unrefAll_ok s.stack s.heap _ hb
    exact ⟨h, e1, e2⟩

/-- C71: a program that gives back all it got and releases the enumerator leaves nothing behind, and what it held from before
    is as it was. -/
theorem enumeration_no_leak {db : Db} {mode : NetMode} (hm : mode ≠ .bogons) {h0 : Heap} {s : EnumUse} (hr : EnumRun db mode h0 s) (hh : s.held = []) :
    ∃ h, lEnumFree s.heap s.stack = .ok h ∧ ∀ k, references h k = references h0 k := by
  obtain ⟨-, -, -, h, e1, e2⟩ := enumeration_lifetime hm hr
  exact ⟨h, e1, fun k => by rw [e2 k, hh]; simp⟩

/-! ### Bogons -/

theorem bogon_balance {db : Db} {h0 : Heap} {s : EnumUse} (hr : EnumRun db .bogons h0 s) :
    ∃ lost : List Nat, Bal s.heap s.stack (fun j => s.held.count j + refsOf h0 j + lost.count j) ∧ ∀ i ∈ s.stack ++ s.got, i ∈ lost := by
  induction hr with
  | start f => exact ⟨[], fun j => by simp, by simp⟩
  | @step s s' _ hs ih =>
    obtain ⟨lost, ih, im⟩ := ih
    cases hs with
    | @next fuel r h e stack hr =>
      have hsafe := lNextBogon_safe db fuel (e := s.enum) ih
      have hr' : lNextBogon db fuel s.heap s.enum s.stack = .ok (r, h, e, stack) := hr
      rw [hr'] at hsafe
      obtain ⟨lost2, b1, b2⟩ := hsafe
      refine ⟨lost ++ lost2, fun j => ?_, fun i hi => ?_⟩
      · have := b1 j
        simp only [List.count_append] at *
        omega
      · simp only [List.mem_append] at hi b2 ⊢
        have old : ∀ i, i ∈ s.stack ∨ i ∈ s.got → i ∈ lost := fun i hi => im i (List.mem_append.mpr hi)
        rcases hi with hi | hi | hi
        · exact (b2 i (.inr hi)).imp (fun h => old i (.inl h)) id
        · exact (b2 i (.inl hi)).imp (fun h => old i (.inl h)) id
        · exact .inl (old i (.inr hi))
    | @take i h hi hr =>
      have p : 0 < refsOf s.heap i := by
        rw [ih]
        have := List.count_pos_iff.mpr hi
        simp only
        omega
      obtain ⟨h', e1, e2, -⟩ := ref_ok p
      rw [hr] at e1
      cases e1
      refine ⟨lost, fun j => ?_, im⟩
      have := e2 j
      have := ih j
      simp only [count_cons_one] at *
      omega
    | @release i h hi hr =>
      have p : 0 < refsOf s.heap i := by
        rw [ih]
        have := List.count_pos_iff.mpr hi
        simp only
        omega
      obtain ⟨h', e1, e2, -⟩ := unref_ok p
      rw [hr] at e1
      cases e1
      refine ⟨lost, fun j => ?_, im⟩
      have := e2 j
      have := ih j
      have := count_erase_add hi j
      simp only at *
      omega

/-- C71, the part that holds for bogons: no call accesses a released object, what the program holds can be used and given
    back, and the enumerator can be released.  What is missing: objects are not released when nobody needs them any more
    (`bogons_never_released`). -/
theorem bogon_lifetime_partial {db : Db} {h0 : Heap} {s : EnumUse} (hr : EnumRun db .bogons h0 s) :
    (∀ k, s.stack.count k + s.held.count k + references h0 k ≤ references s.heap k) ∧
    (∀ fuel, lNext db .bogons fuel s.heap s.enum s.stack ≠ .error .freed) ∧
    (∀ i ∈ s.held, (∃ n, deref s.heap i = .ok n) ∧ (∃ h, ref s.heap i = .ok h) ∧ ∃ h, unref s.heap i = .ok h) ∧
    ∃ h, lEnumFree s.heap s.stack = .ok h ∧ ∀ k, s.held.count k + references h0 k ≤ references h k := by
  obtain ⟨lost, hb, -⟩ := bogon_balance hr
  refine ⟨fun k => ?_, fun fuel he => ?_, fun i hi => ?_, ?_⟩
  · rw [references_eq, references_eq, hb k]
    simp only
    omega
  · have hsafe := lNextBogon_safe db fuel (e := s.enum) hb
    have he' : lNextBogon db fuel s.heap s.enum s.stack = .error .freed := he
    rw [he'] at hsafe
    exact hsafe
  · have p : 0 < refsOf s.heap i := by
      rw [hb]
      have := List.count_pos_iff.mpr hi
      simp only
      omega
    obtain ⟨ns, hns⟩ := cont_exists (l := [i]) fun j hj => by rw [List.mem_singleton] at hj; subst hj; exact p
    obtain ⟨n, -, -, hn, -⟩ := hns.uncons
    obtain ⟨h1, r1, -⟩ := ref_ok p
    obtain ⟨h2, r2, -⟩ := unref_ok p
    exact ⟨⟨n, deref_ok p hn⟩, ⟨h1, r1⟩, ⟨h2, r2⟩⟩
  · obtain ⟨h, e1, e2, -⟩ := unrefAll_ok s.stack s.heap _ hb
    refine ⟨h, e1, fun k => ?_⟩
    rw [references_eq, references_eq, e2 k]
    omega

/-- C71 violated: no bogon is ever released, even if the program gives back every reference it got and releases the
    enumerator. -/
theorem bogons_never_released {db : Db} {h0 : Heap} {s : EnumUse} (hr : EnumRun db .bogons h0 s) :
    ∃ h, lEnumFree s.heap s.stack = .ok h ∧ ∀ i ∈ s.stack ++ s.got, s.held.count i + references h0 i < references h i := by
  obtain ⟨lost, hb, hm⟩ := bogon_balance hr
  obtain ⟨h, e1, e2, -⟩ := unrefAll_ok s.stack s.heap _ hb
  refine ⟨h, e1, fun i hi => ?_⟩
  have := List.count_pos_iff.mpr (hm i hi)
  rw [references_eq, references_eq, e2 i]
  omega

/-! ### The same networks -/

theorem given_returns {h : Heap} {r : LNext} {x : Next Network} (hg : Given h r x) (hp : ∀ i ∈ r.given, 0 < refsOf h i) : Returns h r x := by
  cases x with
  | item n =>
    cases r with
    | item i => exact ⟨i, rfl, deref_ok (hp i (by simp [LNext.given])) hg⟩
    | done => exact hg.elim
    | failed l => cases l <;> exact hg.elim
  | done =>
    cases r with
    | item i => exact hg.elim
    | done => rfl
    | failed l => cases l <;> exact hg.elim
  | failed =>
    cases r with
    | item i => exact hg.elim
    | done => exact hg.elim
    | failed l =>
      cases l with
      | none => rfl
      | some i => exact hg.elim
  | failedHeld =>
    cases r with
    | item i => exact hg.elim
    | done => exact hg.elim
    | failed l =>
      cases l with
      | none => exact hg.elim
      | some i => exact ⟨i, rfl⟩

theorem enum_alive {db : Db} {mode : NetMode} {h0 : Heap} {s : EnumUse} (hr : EnumRun db mode h0 s) :
    ∃ R, Bal s.heap s.stack R ∧ ∀ i ∈ s.held, 0 < refsOf s.heap i := by
  have key : ∃ R : Nat → Nat, Bal s.heap s.stack (fun j => s.held.count j + R j) := by
    by_cases hm : mode = .bogons
    · subst hm
      obtain ⟨lost, hb, -⟩ := bogon_balance hr
      exact ⟨fun j => refsOf h0 j + lost.count j, fun j => by rw [hb j]; simp only; omega⟩
    · exact ⟨_, enum_balance hm hr⟩
  obtain ⟨R, hb⟩ := key
  refine ⟨_, hb, fun i hi => ?_⟩
  rw [hb]
  have := List.count_pos_iff.mpr hi
  simp only
  omega

theorem lNext_keeps {db : Db} {mode : NetMode} {fuel : Nat} {h h' : Heap} {e e' : NetEnum} {st st' : List Nat} {R : Nat → Nat} {r : LNext} (hb : Bal h st R)
    (hr : lNext db mode fuel h e st = .ok (r, h', e', st')) : Keeps h h' := by
  obtain ⟨ns, hns⟩ := cont_exists fun j hj => hb.pos hj
  by_cases hm : mode = .bogons
  · subst hm
    rcases lNextBogon_sim db fuel (e := e) hb hns with ⟨a, b, d1, -, d3⟩ | ⟨x, d1, -⟩
    · have hr : lNextBogon db fuel h e st = _ := hr
      rw [hr] at d1
      cases d1
      exact d3.1
    · have hr : lNextBogon db fuel h e st = _ := hr
      rw [hr] at d1
      cases d1
  · rcases lNext_sim db hm fuel (e := e) hb hns with ⟨a, b, d1, -, ns', -, -, -, -, d7⟩ | ⟨x, d1, -⟩
    · rw [hr] at d1
      cases d1
      exact d7
    · rw [hr] at d1
      cases d1

/-- C71: the objects that a program gets contain the networks of C16, C28 and C29, in the same order: if `s` stands for `e`,
    the next call returns the same, and what is reached stands for what is reached there (unless a bogon enumeration has
    failed).  A new enumerator stands for a new one (`enumeration_start`). -/
theorem enumeration_objects {db : Db} {mode : NetMode} {h0 : Heap} {s : EnumUse} (hr : EnumRun db mode h0 s) {e : NetEnum} (he : StandsFor s e) (fuel : Nat) :
    (∃ x e' r h en st, nextOf db mode fuel e = .ok (x, e') ∧ lNext db mode fuel s.heap s.enum s.stack = .ok (r, h, en, st) ∧ Returns h r x ∧
      ((mode = .bogons → x ≠ .failed) → StandsFor ⟨h, en, st, r.given ++ s.held, r.given ++ s.got⟩ e')) ∨
    ∃ f, nextOf db mode fuel e = .error f ∧ lNext db mode fuel s.heap s.enum s.stack = .error (.other f) := by
  obtain ⟨R, hb, -⟩ := enum_alive hr
  obtain ⟨he1, he2⟩ := he
  obtain ⟨hc, hp⟩ := cont_deref.mp he2
  rw [he1]
  by_cases hm : mode = .bogons
  · subst hm
    rcases lNextBogon_sim db fuel (e := s.enum) hb hc with ⟨⟨r, h, en, st⟩, ⟨x, e'⟩, d1, d2, d3, d4, d5⟩ | ⟨f, d1, d2⟩
    · left
      have hs := lNextBogon_safe db fuel (e := s.enum) hb
      rw [d1] at hs
      obtain ⟨lost, l1, l2⟩ := hs
      simp only at d3 d4 d5 l1
      refine ⟨x, e', r, h, en, st, d2, d1, given_returns d4 fun i hi => l1.pos (List.mem_append_left _ hi), fun hx => ?_⟩
      obtain ⟨ns, q1, q2⟩ := d5 (hx rfl)
      subst q1
      exact ⟨rfl, cont_deref.mpr ⟨q2, fun i hi => l1.pos (List.mem_append_right _ hi)⟩⟩
    · exact .inr ⟨f, d2, d1⟩
  · rcases lNext_sim db hm fuel (e := s.enum) hb hc with ⟨⟨r, h, en, st⟩, ⟨x, e'⟩, d1, d2, ns, d3, d4, d5, d6, d7⟩ | ⟨f, d1, d2⟩
    · left
      simp only at d3 d4 d5 d6
      refine ⟨x, e', r, h, en, st, d2, d1, given_returns d5 fun i hi => ?_, fun _ => ?_⟩
      · rw [d6]
        have := List.count_pos_iff.mpr hi
        simp only
        omega
      · subst d3
        exact ⟨rfl, cont_deref.mpr ⟨d4, fun i hi => d6.pos hi⟩⟩
    · exact .inr ⟨f, d2, d1⟩

theorem enumeration_start (h0 : Heap) (f : Filter) : StandsFor ⟨h0, enumNew f, [], [], []⟩ (enumNew f) := ⟨rfl, rfl⟩

/-- C71: what a program holds does not change while it holds it, and what it does with its references does not change what
    the enumerator stands for. -/
theorem enumeration_kept {db : Db} {mode : NetMode} {h0 : Heap} {s s' : EnumUse} (hr : EnumRun db mode h0 s) (hs : EnumStep db mode s s') :
    (∀ i ∈ s.held, i ∈ s'.held → deref s'.heap i = deref s.heap i) ∧
    ∀ {e : NetEnum}, StandsFor s e → s'.enum = s.enum → s'.stack = s.stack → StandsFor s' e := by
  obtain ⟨R, hb, hp⟩ := enum_alive hr
  obtain ⟨R', hb', hp'⟩ := enum_alive (hr.step hs)
  have hk : Keeps s.heap s'.heap := by
    cases hs with
    | next hr => exact lNext_keeps hb hr
    | @take i h hi hr =>
      obtain ⟨h', e1, -, e3⟩ := ref_ok (hp i hi)
      rw [hr] at e1
      cases e1
      exact .same e3
    | @release i h hi hr =>
      obtain ⟨h', e1, -, e3⟩ := unref_ok (hp i hi)
      rw [hr] at e1
      cases e1
      exact .same e3
  refine ⟨fun i hi hi' => ?_, fun {e} he h1 h2 => ⟨?_, ?_⟩⟩
  · obtain ⟨ns, hns⟩ := cont_exists (h := s.heap) (l := [i]) fun j hj => by rw [List.mem_singleton] at hj; subst hj; exact hp _ hi
    obtain ⟨n, -, -, hn, -⟩ := hns.uncons
    rw [deref_ok (hp i hi) hn, deref_ok (hp' i hi') (hk _ _ hn)]
  · rw [h1]; exact he.1
  · rw [h2]
    refine cont_deref.mpr ⟨(cont_deref.mp he.2).1.keeps hk, fun i hi => hb'.pos (by rw [h2]; exact hi)⟩

/-! ### Examples -/

theorem drain_first {σ α : Type} {next : σ → Res (Next α × σ)} {fuel : Nat} {s s' : σ} {x : α} {l : List α} {b : Bool} (h : drain next fuel s = .ok (x :: l, b, s')) :
    ∃ s1, next s = .ok (.item x, s1) := by
  cases fuel with
  | zero => cases h
  | succ fuel =>
    rw [drain] at h
    cases hn : next s with
    | error e => rw [hn] at h; cases h
    | ok y =>
      obtain ⟨y, s1⟩ := y
      rw [hn] at h
      cases y with
      | done => cases h
      | failed => cases h
      | failedHeld => cases h
      | item y =>
        simp only at h
        cases hd : drain next fuel s1 with
        | error e => rw [hd] at h; cases h
        | ok z =>
          rw [hd] at h
          cases h
          exact ⟨s1, rfl⟩

/-- 10.0.0.0/8 without 10.0.0.0/10: the list has the only references to the new networks. -/
example : ∃ n m h l, newNetwork (ip4 10 0 0 0) 8 = .ok n ∧ newNetwork (ip4 10 0 0 0) 10 = .ok m ∧
    deref [(n, 1), (m, 2)] 0 = .ok n ∧ deref [(n, 1), (m, 2)] 1 = .ok m ∧
    lExclude [(n, 1), (m, 2)] 0 1 = .ok (h, some l) ∧ l.length = 2 ∧ (∀ i ∈ l, references h i = 1) ∧ references h 0 = 1 ∧ references h 1 = 2 := by
  refine ⟨⟨.inet, ip4 10 0 0 0, ip4 10 255 255 255, 104, 0, 0, 0, 0⟩, ⟨.inet, ip4 10 0 0 0, ip4 10 63 255 255, 106, 0, 0, 0, 0⟩, ?_⟩
  obtain ⟨h, l, e1, e2, -⟩ := exclude_lifetime (h := [(⟨.inet, ip4 10 0 0 0, ip4 10 255 255 255, 104, 0, 0, 0, 0⟩, 1), (⟨.inet, ip4 10 0 0 0, ip4 10 63 255 255, 106, 0, 0, 0, 0⟩, 2)])
    (i := 0) (j := 1) rfl rfl
  have hx : ((lExclude [(⟨.inet, ip4 10 0 0 0, ip4 10 255 255 255, 104, 0, 0, 0, 0⟩, 1), (⟨.inet, ip4 10 0 0 0, ip4 10 63 255 255, 106, 0, 0, 0, 0⟩, 2)] 0 1).toOption.bind (·.2)) = some [5, 3] := by
    decide +kernel
  rw [e1] at hx
  cases hx
  have e3 := e2.2
  refine ⟨h, [5, 3], by decide +kernel, by decide +kernel, rfl, rfl, e1, rfl, ?_, ?_, ?_⟩
  · intro i hi
    rw [e3]
    simp only [List.mem_cons, List.not_mem_nil, or_false] at hi
    rcases hi with rfl | rfl <;> decide
  · rw [e3]; decide
  · rw [e3]; decide

/-- A program that gets a network out of a database, keeps it for a while and gives it back. -/
example : ∃ w f db, Written 32 none none [.addNetwork net64_2] demoEnv w f ∧ dbOpen f = .ok db ∧
    ∃ s, EnumRun db .plain [] s ∧ s.got ≠ [] ∧ s.held = [] := by
  obtain ⟨w, f, db, h1, h2, h3, h4, h5⟩ := bogon_file (ops := [.addNetwork net64_2]) (l := [net64_2])
    (by intro op h; rw [List.mem_singleton] at h; subst h; exact de4_built (by decide +kernel))
    (by decide) (by decide +kernel) (by decide +kernel) (by decide) (by unfold AroundV4; decide +kernel)
  refine ⟨w, f, db, h1, h2, ?_⟩
  obtain ⟨found, steps, k1, hC, k2, k3⟩ := bogon_written (by decide) h1 h2 h4 h5 noFilter
  rw [h3] at k2
  have k4 : found = [readBack net64_2] := by rw [k2]; decide +kernel
  rw [k4] at k1
  obtain ⟨s', k5⟩ := k1 steps (Nat.le_refl _)
  obtain ⟨s1, k6⟩ := drain_first k5
  have k7 : nextOf db .plain 0 (enumNew noFilter) = .ok (.item (readBack net64_2), s1) := k6
  have r0 : EnumRun db .plain [] ⟨[], enumNew noFilter, [], [], []⟩ := .start noFilter
  rcases enumeration_objects r0 (enumeration_start [] noFilter) 0 with ⟨y, e', r, h, en, st, m1, m2, m3, -⟩ | ⟨f, m1, -⟩
  · rw [k7] at m1
    cases m1
    obtain ⟨i, rfl, m4⟩ := m3
    have r1 := r0.step (.next m2)
    obtain ⟨-, -, p1, -⟩ := enumeration_lifetime (by decide) r1
    obtain ⟨-, -, h', p2⟩ := p1 i (by simp [LNext.given])
    exact ⟨_, r1.step (.release (i := i) (by simp [LNext.given]) p2), by simp [LNext.given], by simp [LNext.given]⟩
  · rw [k7] at m1
    cases m1

/-- C71 violated: in a program without networks a bogon enumeration of a database with 64.0.0.0/2 (DE) returns a network; the
    program gives it back and releases the enumerator; the network is still there. -/
theorem bogons_violated_leak : ∃ w f db, Written 32 none none [.addNetwork net64_2] demoEnv w f ∧ dbOpen f = .ok db ∧
    ∃ s i, EnumRun db .bogons [] s ∧ i ∈ s.got ∧ s.held = [] ∧ ∃ h, lEnumFree s.heap s.stack = .ok h ∧ 0 < references h i := by
  obtain ⟨w, f, db, h1, h2, h3, h4, h5⟩ := bogon_file (ops := [.addNetwork net64_2]) (l := [net64_2])
    (by intro op h; rw [List.mem_singleton] at h; subst h; exact de4_built (by decide +kernel))
    (by decide) (by decide +kernel) (by decide +kernel) (by decide) (by unfold AroundV4; decide +kernel)
  refine ⟨w, f, db, h1, h2, ?_⟩
  obtain ⟨found, steps, k1, hC, k2, k3⟩ := bogon_written (by decide) h1 h2 h4 h5 noFilter
  rw [h3] at k2
  have k4 : withCountry found = [net64_2] := by rw [k2]; decide +kernel
  rw [k4] at k3
  obtain ⟨x, R, b, hR⟩ : ∃ x R b, bogL [net64_2] (addrReset .inet6) (addrReset .inet) = .ok (x :: R, b) := by
    cases hb : bogL [net64_2] (addrReset .inet6) (addrReset .inet) with
    | error e => exact absurd (show (bogL [net64_2] (addrReset .inet6) (addrReset .inet)).toOption.isSome = false by rw [hb]; rfl) (by decide +kernel)
    | ok y =>
      obtain ⟨l, b⟩ := y
      cases l with
      | nil => exact absurd (show ((bogL [net64_2] (addrReset .inet6) (addrReset .inet)).toOption.map (·.1.isEmpty)) = some true by rw [hb]; rfl) (by decide +kernel)
      | cons x l => exact ⟨x, l, b, rfl⟩
  obtain ⟨s', steps', k5⟩ := k3 _ _ hR
  obtain ⟨s1, k6⟩ := drain_first (k5 steps' steps' (Nat.le_refl _) (Nat.le_refl _))
  have k7 : nextOf db .bogons steps' (enumNew noFilter) = .ok (.item x, s1) := k6
  have r0 : EnumRun db .bogons [] ⟨[], enumNew noFilter, [], [], []⟩ := .start noFilter
  rcases enumeration_objects r0 (enumeration_start [] noFilter) steps' with ⟨y, e', r, h, en, st, m1, m2, m3, -⟩ | ⟨f, m1, -⟩
  · rw [k7] at m1
    cases m1
    obtain ⟨i, rfl, m4⟩ := m3
    have r1 := r0.step (.next m2)
    obtain ⟨-, -, p1, -⟩ := bogon_lifetime_partial r1
    obtain ⟨-, -, h', p2⟩ := p1 i (by simp [LNext.given])
    have r2 := r1.step (.release (i := i) (by simp [LNext.given]) p2)
    obtain ⟨h'', q1, q2⟩ := bogons_never_released r2
    refine ⟨_, i, r2, by simp [LNext.given], by simp [LNext.given], h'', q1, ?_⟩
    have := q2 i (List.mem_append_right _ (by simp [LNext.given]))
    omega
  · rw [k7] at m1
    cases m1

end Loc.Props
