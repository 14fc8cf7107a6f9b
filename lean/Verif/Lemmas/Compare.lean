import Verif.Spec.Compare
import Verif.Lemmas.Path
/-
Lemmas about comparisons in Python.
-/
namespace Loc
open Spec

theorem asCmp_spec (a b : AS) :
    (asCmp a b = 1 ∧ b.number.toNat < a.number.toNat) ∨ (asCmp a b = -1 ∧ a.number.toNat < b.number.toNat) ∨
      (asCmp a b = 0 ∧ a.number.toNat = b.number.toNat) := by
  unfold asCmp
  simp only [GT.gt, BitVec.lt_def]
  by_cases h1 : b.number.toNat < a.number.toNat
  · rw [if_pos h1]; exact .inl ⟨rfl, h1⟩
  · rw [if_neg h1]
    by_cases h2 : a.number.toNat < b.number.toNat
    · rw [if_pos h2]; exact .inr (.inl ⟨rfl, h2⟩)
    · rw [if_neg h2]; exact .inr (.inr ⟨rfl, by omega⟩)

theorem countryCmp_spec (a b : Country) :
    (countryCmp a b = 1 ∧ (b.c0.toNat < a.c0.toNat ∨ b.c0.toNat = a.c0.toNat ∧ b.c1.toNat < a.c1.toNat)) ∨
      (countryCmp a b = -1 ∧ (a.c0.toNat < b.c0.toNat ∨ a.c0.toNat = b.c0.toNat ∧ a.c1.toNat < b.c1.toNat)) ∨
      (countryCmp a b = 0 ∧ a.c0.toNat = b.c0.toNat ∧ a.c1.toNat = b.c1.toNat) := by
  unfold countryCmp ccCmp
  simp only [BitVec.lt_def]
  by_cases h1 : a.c0.toNat < b.c0.toNat
  · rw [if_pos h1]; exact .inr (.inl ⟨rfl, .inl h1⟩)
  · rw [if_neg h1]
    by_cases h2 : b.c0.toNat < a.c0.toNat
    · rw [if_pos h2]; exact .inl ⟨rfl, .inl h2⟩
    · rw [if_neg h2]
      by_cases h3 : a.c1.toNat < b.c1.toNat
      · rw [if_pos h3]; exact .inr (.inl ⟨rfl, .inr ⟨by omega, h3⟩⟩)
      · rw [if_neg h3]
        by_cases h4 : b.c1.toNat < a.c1.toNat
        · rw [if_pos h4]; exact .inl ⟨rfl, .inr ⟨by omega, h4⟩⟩
        · rw [if_neg h4]; exact .inr (.inr ⟨rfl, by omega, by omega⟩)

/-- The result of the library for two objects of the same type -/
theorem richcompare_alike {x y : PyRef} (hx : Made x) (hy : Made y) (ha : Alike x y) : ∃ r : Int,
    (∀ op, richcompare x.thing y.thing op = .ok (cmpResult r op)) ∧
      (∀ op, richcompare y.thing x.thing op = .ok (cmpResult (-r) op)) ∧
      ((r < 0 ∧ Earlier (meaning x) (meaning y)) ∨ (r > 0 ∧ Earlier (meaning y) (meaning x)) ∨ (r = 0 ∧ meaning x = meaning y)) := by
  obtain ⟨i, x⟩ := x
  obtain ⟨j, y⟩ := y
  unfold Alike at ha
  unfold Made at hx hy
  cases x with
  | other => exact absurd ha id
  | network a =>
    cases y with
    | network b =>
      cases a with
      | none => exact absurd rfl hx.1
      | some a =>
        cases b with
        | none => exact absurd rfl hy.1
        | some b =>
          have h1 := netCmp_spec a b
          have h2 := netCmp_spec b a
          have hlt : ∀ {p q : Network}, Before p q → Earlier (.block (value p.first) p.pfx) (.block (value q.first) q.pfx) :=
            fun h => h
          have hsame : ∀ {p q : Network}, SameBlock p q →
              Meaning.block (value p.first) p.pfx = .block (value q.first) q.pfx := fun h => by rw [h.1, h.2]
          refine ⟨netCmp a b, fun op => rfl, fun op => ?_, ?_⟩
          · show Except.ok (cmpResult (netCmp b a) op) = _
            have : netCmp b a = - netCmp a b := by
              rcases h1 with ⟨e1, o1⟩ | ⟨e1, o1⟩ | ⟨e1, o1⟩ <;> rcases h2 with ⟨e2, o2⟩ | ⟨e2, o2⟩ | ⟨e2, o2⟩ <;>
                first | omega | (exfalso; simp only [Before, SameBlock] at o1 o2; omega)
            rw [this]
          · rcases h1 with ⟨e1, o1⟩ | ⟨e1, o1⟩ | ⟨e1, o1⟩
            · exact .inr (.inl ⟨by omega, hlt o1⟩)
            · exact .inl ⟨by omega, hlt o1⟩
            · exact .inr (.inr ⟨e1, hsame o1⟩)
    | _ => exact absurd ha id
  | as a =>
    cases y with
    | as b =>
      cases a with
      | none => exact absurd rfl hx.2.1
      | some a =>
        cases b with
        | none => exact absurd rfl hy.2.1
        | some b =>
          have h1 := asCmp_spec a b
          have h2 := asCmp_spec b a
          refine ⟨asCmp a b, fun op => rfl, fun op => ?_, ?_⟩
          · show Except.ok (cmpResult (asCmp b a) op) = _
            rw [show asCmp b a = - asCmp a b by omega]
          · rcases h1 with ⟨e1, o1⟩ | ⟨e1, o1⟩ | ⟨e1, o1⟩
            · exact .inr (.inl ⟨by omega, o1⟩)
            · exact .inl ⟨by omega, o1⟩
            · exact .inr (.inr ⟨e1, by simp only [meaning, o1]⟩)
    | _ => exact absurd ha id
  | country a =>
    cases y with
    | country b =>
      cases a with
      | none => exact absurd rfl hx.2.2
      | some a =>
        cases b with
        | none => exact absurd rfl hy.2.2
        | some b =>
          have h1 := countryCmp_spec a b
          have h2 := countryCmp_spec b a
          refine ⟨countryCmp a b, fun op => rfl, fun op => ?_, ?_⟩
          · show Except.ok (cmpResult (countryCmp b a) op) = _
            rw [show countryCmp b a = - countryCmp a b by omega]
          · rcases h1 with ⟨e1, o1⟩ | ⟨e1, o1⟩ | ⟨e1, o1⟩
            · exact .inr (.inl ⟨by omega, o1⟩)
            · exact .inl ⟨by omega, o1⟩
            · exact .inr (.inr ⟨e1, by simp only [meaning, o1.1, o1.2]⟩)
    | _ => exact absurd ha id

theorem alike_symm {x y : PyRef} (h : Alike x y) : Alike y x := by
  obtain ⟨i, x⟩ := x
  obtain ⟨j, y⟩ := y
  cases x <;> cases y <;> first | exact h | exact absurd h id

theorem alike_trans {x y z : PyRef} (h : Alike x y) (h' : Alike y z) : Alike x z := by
  obtain ⟨i, x⟩ := x
  obtain ⟨j, y⟩ := y
  obtain ⟨k, z⟩ := z
  cases x <;> cases y <;> first | exact absurd h id | skip
  all_goals cases z <;> first | exact h' | exact absurd h' id

theorem richcompare_unlike {x y : PyRef} (ha : ¬ Alike x y) (op : CmpOp) : richcompare x.thing y.thing op = .ok none := by
  obtain ⟨i, x⟩ := x
  obtain ⟨j, y⟩ := y
  unfold Alike at ha
  cases x <;> cases y <;> first | rfl | exact absurd trivial ha

/-- Objects that are not of the same type stand for different things, unless they are the same. -/
theorem meaning_unlike {x y : PyRef} (hx : Made x) (hy : Made y) (ha : ¬ Alike x y) (hid : x.id = y.id → x = y) :
    meaning x = meaning y ↔ x.id = y.id := by
  refine ⟨fun h => ?_, fun h => by rw [hid h]⟩
  obtain ⟨i, x⟩ := x
  obtain ⟨j, y⟩ := y
  unfold Alike at ha
  unfold Made at hx hy
  unfold meaning at h
  cases x with
  | other =>
    cases y with
    | other => injection h
    | network b => cases b with
      | none => exact absurd rfl hy.1
      | some b => cases h
    | as b => cases b with
      | none => exact absurd rfl hy.2.1
      | some b => cases h
    | country b => cases b with
      | none => exact absurd rfl hy.2.2
      | some b => cases h
  | network a =>
    cases a with
    | none => exact absurd rfl hx.1
    | some a =>
      cases y with
      | network b => exact absurd trivial ha
      | other => cases h
      | as b => cases b <;> cases h
      | country b => cases b <;> cases h
  | as a =>
    cases a with
    | none => exact absurd rfl hx.2.1
    | some a =>
      cases y with
      | as b => exact absurd trivial ha
      | other => cases h
      | network b => cases b <;> cases h
      | country b => cases b <;> cases h
  | country a =>
    cases a with
    | none => exact absurd rfl hx.2.2
    | some a =>
      cases y with
      | country b => exact absurd trivial ha
      | other => cases h
      | network b => cases b <;> cases h
      | as b => cases b <;> cases h

theorem earlier_irrefl (m : Meaning) : ¬ Earlier m m := by
  cases m <;> simp [Earlier]

theorem earlier_trans {a b c : Meaning} (h : Earlier a b) (h' : Earlier b c) : Earlier a c := by
  cases a <;> cases b <;> cases c <;> simp only [Earlier] at * <;> omega

/-- `x < y` for two objects of the same type -/
theorem pyCompare_lt {x y : PyRef} (hx : Made x) (hy : Made y) (ha : Alike x y) :
    ∃ b, pyCompare x y .lt = .ok (.ret b) ∧ (b = true ↔ Earlier (meaning x) (meaning y)) := by
  obtain ⟨r, h1, h2, h3⟩ := richcompare_alike hx hy ha
  refine ⟨decide (r < 0), by unfold pyCompare; rw [h1]; rfl, ?_⟩
  rw [decide_eq_true_eq]
  rcases h3 with ⟨h, o⟩ | ⟨h, o⟩ | ⟨h, o⟩
  · exact ⟨fun _ => o, fun _ => h⟩
  · exact ⟨fun h' => by omega, fun h' => absurd (earlier_trans o h') (earlier_irrefl _)⟩
  · exact ⟨fun h' => by omega, fun h' => by rw [o] at h'; exact absurd h' (earlier_irrefl _)⟩

/-- `x == y` for all objects -/
theorem pyCompare_eq {x y : PyRef} (hx : Made x) (hy : Made y) (hid : x.id = y.id → x = y) :
    ∃ b, pyCompare x y .eq = .ok (.ret b) ∧ (b = true ↔ meaning x = meaning y) := by
  by_cases ha : Alike x y
  · obtain ⟨r, h1, h2, h3⟩ := richcompare_alike hx hy ha
    refine ⟨r == 0, by unfold pyCompare; rw [h1]; rfl, ?_⟩
    rw [beq_iff_eq]
    rcases h3 with ⟨h, o⟩ | ⟨h, o⟩ | ⟨h, o⟩
    · exact ⟨fun h' => by omega, fun h' => by rw [h'] at o; exact absurd o (earlier_irrefl _)⟩
    · exact ⟨fun h' => by omega, fun h' => by rw [h'] at o; exact absurd o (earlier_irrefl _)⟩
    · exact ⟨fun _ => o, fun _ => h⟩
  · refine ⟨x.id == y.id, ?_, ?_⟩
    · unfold pyCompare
      rw [richcompare_unlike ha, richcompare_unlike (fun h => ha (alike_symm h))]
    · rw [beq_iff_eq, meaning_unlike hx hy ha hid]

/-- What is known of a sorted part -/
def Settled (l : List PyRef) : Prop := l.Pairwise (fun a b => ¬ Earlier (meaning b) (meaning a))

theorem pyInsert_spec {x : PyRef} (hx : Made x) : ∀ {l : List PyRef}, (∀ y ∈ l, Made y ∧ Alike x y) → Settled l →
    ∃ l', pyInsert x l = .ok (.ret l') ∧ Settled l' ∧ (x :: l).Perm l' ∧
      ∀ m, l'.filter (fun z => meaning z = m) = (l ++ [x]).filter (fun z => meaning z = m)
  | [], _, _ => ⟨[x], rfl, List.pairwise_singleton _ _, .refl _, fun _ => rfl⟩
  | y :: l, hl, hs => by
    have hy := hl y (.head _)
    obtain ⟨b, hb, hlt⟩ := pyCompare_lt hx hy.1 hy.2
    unfold Settled at hs
    rw [List.pairwise_cons] at hs
    unfold pyInsert
    rw [hb]
    cases b with
    | true =>
      have hlt := hlt.1 rfl
      have hlater : ∀ z ∈ y :: l, ¬ Earlier (meaning z) (meaning x) ∧ meaning z ≠ meaning x := by
        intro z hz
        cases hz with
        | head => exact ⟨fun h => earlier_irrefl _ (earlier_trans h hlt), fun h => by rw [← h] at hlt; exact earlier_irrefl _ hlt⟩
        | tail _ hz =>
          exact ⟨fun h => hs.1 z hz (earlier_trans h hlt), fun h => by rw [← h] at hlt; exact hs.1 z hz hlt⟩
      refine ⟨x :: y :: l, rfl, ?_, .refl _, fun m => ?_⟩
      · unfold Settled
        rw [List.pairwise_cons, List.pairwise_cons]
        exact ⟨fun z hz => (hlater z hz).1, hs⟩
      · by_cases hm : meaning x = m
        · have : (y :: l).filter (fun z => meaning z = m) = [] := by
            rw [List.filter_eq_nil_iff]
            intro z hz h
            exact (hlater z hz).2 (by rw [of_decide_eq_true h, hm])
          rw [List.filter_append, this, List.filter_cons_of_pos (by simpa using hm), this]
          simp [hm]
        · rw [List.filter_append, List.filter_cons_of_neg (by simpa using hm)]
          simp [hm]
    | false =>
      have hnlt : ¬ Earlier (meaning x) (meaning y) := fun h => by have := hlt.2 h; cases this
      obtain ⟨l', hr, hs', hp, hf⟩ := pyInsert_spec hx (fun z hz => hl z (.tail _ hz)) hs.2
      dsimp only
      rw [hr]
      refine ⟨y :: l', rfl, ?_, (List.Perm.swap y x l).trans (hp.cons y), fun m => ?_⟩
      · unfold Settled
        rw [List.pairwise_cons]
        refine ⟨fun z hz => ?_, hs'⟩
        cases (hp.mem_iff).2 hz with
        | head => exact hnlt
        | tail _ hz => exact hs.1 z hz
      · rw [List.cons_append, List.filter_cons, List.filter_cons, hf]

theorem pySortInto_spec {k : PyRef} : ∀ (l done : List PyRef), (∀ y ∈ done, Made y ∧ Alike k y) → (∀ y ∈ l, Made y ∧ Alike k y) →
    Settled done → ∃ l', pySortInto done l = .ok (.ret l') ∧ Settled l' ∧ (done ++ l).Perm l' ∧
      ∀ m, l'.filter (fun z => meaning z = m) = (done ++ l).filter (fun z => meaning z = m)
  | [], done, _, _, hs => ⟨done, rfl, hs, by rw [List.append_nil], fun m => by rw [List.append_nil]⟩
  | x :: l, done, hd, hl, hs => by
    have hx := hl x (.head _)
    obtain ⟨d, hr, hs1, hp, hf⟩ :=
      pyInsert_spec hx.1 (fun y hy => ⟨(hd y hy).1, alike_trans (alike_symm hx.2) (hd y hy).2⟩) hs
    have hd1 : ∀ y ∈ d, Made y ∧ Alike k y := by
      intro y hy
      cases (hp.mem_iff).2 hy with
      | head => exact hx
      | tail _ h => exact hd y h
    obtain ⟨l', hr', hs', hp', hf'⟩ := pySortInto_spec l d hd1 (fun y hy => hl y (.tail _ hy)) hs1
    refine ⟨l', by unfold pySortInto; rw [hr]; exact hr', hs', ?_, fun m => ?_⟩
    · exact (List.perm_middle.trans (hp.append_right l)).trans hp'
    · rw [hf', List.filter_append, hf, ← List.filter_append, List.append_assoc]; rfl

/-- Objects that can be hashed -/
theorem pyHash_spec {h : Hashing} (hb : 33 ≤ h.bits) {x : PyRef} (hx : Made x) (hn : ∀ n, x.thing ≠ .network n) :
    ∃ r, pyHash h x = .ok (.ret r) := by
  obtain ⟨i, x⟩ := x
  unfold Made at hx
  unfold pyHash
  cases x with
  | network n => exact absurd rfl (hn n)
  | other => exact ⟨_, rfl⟩
  | country c =>
    cases c with
    | none => exact absurd rfl hx.2.2
    | some c => exact ⟨_, rfl⟩
  | as a =>
    cases a with
    | none => exact absurd rfl hx.2.1
    | some a =>
      have h1 : a.number.toNat < 2 ^ (h.bits - 1) := by
        have := a.number.isLt
        exact Nat.lt_of_lt_of_le this (Nat.pow_le_pow_right (by omega) (by omega))
      dsimp only
      rw [if_pos h1, if_neg (by omega)]
      exact ⟨_, rfl⟩

/-- Equal objects have equal hashes. -/
theorem pyHash_congr (h : Hashing) {x y : PyRef} (hx : Made x) (hy : Made y) (he : meaning x = meaning y) :
    pyHash h x = pyHash h y := by
  obtain ⟨i, x⟩ := x
  obtain ⟨j, y⟩ := y
  unfold Made at hx hy
  unfold meaning at he
  unfold pyHash
  cases x with
  | network a =>
    cases a with
    | none => exact absurd rfl hx.1
    | some a =>
      cases y with
      | network b => rfl
      | other => cases he
      | as b => cases b <;> cases he
      | country b => cases b <;> cases he
  | other =>
    cases y with
    | other => injection he with he; subst he; rfl
    | network b => cases b with
      | none => exact absurd rfl hy.1
      | some b => cases he
    | as b => cases b with
      | none => exact absurd rfl hy.2.1
      | some b => cases he
    | country b => cases b with
      | none => exact absurd rfl hy.2.2
      | some b => cases he
  | as a =>
    cases a with
    | none => exact absurd rfl hx.2.1
    | some a =>
      cases y with
      | as b =>
        cases b with
        | none => exact absurd rfl hy.2.1
        | some b => injection he with he; dsimp only; rw [he]
      | other => cases he
      | network b => cases b <;> cases he
      | country b => cases b <;> cases he
  | country a =>
    cases a with
    | none => exact absurd rfl hx.2.2
    | some a =>
      cases y with
      | country b =>
        cases b with
        | none => exact absurd rfl hy.2.2
        | some b =>
          injection he with h1 h2
          dsimp only [countryGetCode]
          rw [BitVec.eq_of_toNat_eq h1, BitVec.eq_of_toNat_eq h2]
      | other => cases he
      | network b => cases b <;> cases he
      | as b => cases b <;> cases he

/-- What sets may contain: one object cannot be two. -/
def Sane (l : List PyRef) : Prop :=
  (∀ x ∈ l, Made x ∧ ∀ n, x.thing ≠ .network n) ∧ ∀ x ∈ l, ∀ y ∈ l, x.id = y.id → x = y

theorem pySetHas_spec {h : Hashing} (hb : 33 ≤ h.bits) {x : PyRef} {hx : Int} (hhx : pyHash h x = .ok (.ret hx)) :
    ∀ {s : List PyRef}, Sane (x :: s) → ∃ b, pySetHas h hx x s = .ok (.ret b) ∧ (b = true ↔ ∃ y ∈ s, meaning y = meaning x)
  | [], _ => ⟨false, rfl, fun h => (by cases h), fun ⟨y, hy, _⟩ => (by cases hy)⟩
  | y :: s, hs => by
    have hmx := hs.1 x (.head _)
    have hmy := hs.1 y (.tail _ (.head _))
    have hid : y.id = x.id → y = x := hs.2 y (.tail _ (.head _)) x (.head _)
    have hs' : Sane (x :: s) := by
      have hsub : ∀ z ∈ x :: s, z ∈ x :: y :: s := fun z hz => by
        cases hz with
        | head => exact .head _
        | tail _ hz => exact .tail _ (.tail _ hz)
      exact ⟨fun z hz => hs.1 z (hsub z hz), fun z hz w hw => hs.2 z (hsub z hz) w (hsub w hw)⟩
    obtain ⟨hy, hhy⟩ := pyHash_spec hb hmy.1 hmy.2
    obtain ⟨b, hr, hbi⟩ := pySetHas_spec hb hhx hs'
    have hskip : meaning y ≠ meaning x → (b = true ↔ ∃ z ∈ y :: s, meaning z = meaning x) := by
      intro hne
      rw [hbi]
      refine ⟨fun ⟨z, hz, e⟩ => ⟨z, .tail _ hz, e⟩, fun ⟨z, hz, e⟩ => ?_⟩
      cases hz with
      | head => exact absurd e hne
      | tail _ hz => exact ⟨z, hz, e⟩
    unfold pySetHas
    rw [hhy]
    dsimp only
    by_cases he : hy = hx
    · rw [if_pos he]
      by_cases hi : y.id = x.id
      · rw [if_pos hi]
        exact ⟨true, rfl, fun _ => ⟨y, .head _, by rw [hid hi]⟩, fun _ => rfl⟩
      · rw [if_neg hi]
        obtain ⟨c, hc, hci⟩ := pyCompare_eq hmy.1 hmx.1 hid
        rw [hc]
        cases c with
        | true => exact ⟨true, rfl, fun _ => ⟨y, .head _, hci.1 rfl⟩, fun _ => rfl⟩
        | false => exact ⟨b, hr, hskip (fun h => by have := hci.2 h; cases this)⟩
    · rw [if_neg he]
      refine ⟨b, hr, hskip (fun e => he ?_)⟩
      have := pyHash_congr h hmy.1 hmx.1 e
      rw [hhy, hhx] at this
      injection this with this
      injection this

theorem pySet_spec {h : Hashing} (hb : 33 ≤ h.bits) : ∀ (l s : List PyRef), Sane (s ++ l) →
    s.Pairwise (fun a b => meaning a ≠ meaning b) →
    ∃ s', pySet h s l = .ok (.ret s') ∧ s'.Pairwise (fun a b => meaning a ≠ meaning b) ∧ (∀ x ∈ s', x ∈ s ++ l) ∧
      ∀ x ∈ s ++ l, ∃ y ∈ s', meaning y = meaning x
  | [], s, _, hp => ⟨s, rfl, hp, fun x hx => by rwa [List.append_nil], fun x hx => ⟨x, by rwa [List.append_nil] at hx, rfl⟩⟩
  | x :: l, s, hs, hp => by
    have hin : x ∈ s ++ x :: l := List.mem_append_right _ (.head _)
    have hmx := hs.1 x hin
    obtain ⟨hx, hhx⟩ := pyHash_spec hb hmx.1 hmx.2
    have hsub : ∀ z ∈ x :: s, z ∈ s ++ x :: l := fun z hz => by
      cases hz with
      | head => exact hin
      | tail _ hz => exact List.mem_append_left _ hz
    obtain ⟨b, hr, hbi⟩ := pySetHas_spec hb hhx
      ⟨fun z hz => hs.1 z (hsub z hz), fun z hz w hw => hs.2 z (hsub z hz) w (hsub w hw)⟩
    unfold pySet pySetAdd
    rw [hhx]
    dsimp only
    rw [hr]
    cases b with
    | true =>
      obtain ⟨y, hy, hyx⟩ := hbi.1 rfl
      have hsub2 : ∀ z ∈ s ++ l, z ∈ s ++ x :: l := fun z hz => by
        rw [List.mem_append] at hz ⊢
        exact hz.imp id (fun h => .tail _ h)
      obtain ⟨s', h1, h2, h3, h4⟩ := pySet_spec hb l s
        ⟨fun z hz => hs.1 z (hsub2 z hz), fun z hz w hw => hs.2 z (hsub2 z hz) w (hsub2 w hw)⟩ hp
      refine ⟨s', h1, h2, fun z hz => hsub2 z (h3 z hz), fun z hz => ?_⟩
      rw [List.mem_append] at hz
      cases hz with
      | inl hz => exact h4 z (List.mem_append_left _ hz)
      | inr hz =>
        cases hz with
        | head =>
          obtain ⟨w, hw, e⟩ := h4 y (List.mem_append_left _ hy)
          exact ⟨w, hw, e.trans hyx⟩
        | tail _ hz => exact h4 z (List.mem_append_right _ hz)
    | false =>
      have hnot : ∀ y ∈ s, meaning y ≠ meaning x := fun y hy e => by have := hbi.2 ⟨y, hy, e⟩; cases this
      have e : (s ++ [x]) ++ l = s ++ x :: l := by rw [List.append_assoc]; rfl
      obtain ⟨s', h1, h2, h3, h4⟩ := pySet_spec hb l (s ++ [x]) (by rw [e]; exact hs) (by
        rw [List.pairwise_append]
        exact ⟨hp, List.pairwise_singleton _ _, fun y hy z hz => by
          rw [List.mem_singleton] at hz; subst hz; exact hnot y hy⟩)
      rw [e] at h3 h4
      exact ⟨s', h1, h2, h3, h4⟩

end Loc
