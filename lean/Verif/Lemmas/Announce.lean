import Verif.Model.Announce
import Verif.Spec.Announce
import Verif.Lemmas.WhoisLines
import Verif.Lemmas.DumpRead
import Verif.Props.Network
/-
Lemmas about importing routes from BIRD.
-/
namespace Loc
open Spec Props

/-! ## Regular expressions -/

theorem mem_rxOne {p : Byte → Bool} {s r : Bytes} {c : Byte} : (c, r) ∈ rxOne p s ↔ s = c :: r ∧ p c = true := by
  unfold rxOne
  cases s with
  | nil => simp
  | cons x s =>
    simp only
    by_cases h : p x = true
    · rw [if_pos h]
      constructor
      · intro hm
        cases List.mem_singleton.mp hm
        exact ⟨rfl, h⟩
      · rintro ⟨e, -⟩
        cases e
        exact List.mem_singleton.mpr rfl
    · rw [if_neg h]
      constructor
      · intro hm; cases hm
      · rintro ⟨e, h'⟩
        cases e
        exact absurd h' h

theorem mem_rxLazy {p : Byte → Bool} : ∀ {s a r : Bytes}, (a, r) ∈ rxLazy p s ↔ s = a ++ r ∧ ∀ c ∈ a, p c = true
  | [], a, r => by
    unfold rxLazy
    constructor
    · intro h
      cases List.mem_singleton.mp h
      exact ⟨rfl, fun c hc => by cases hc⟩
    · rintro ⟨h, -⟩
      have h := List.append_eq_nil_iff.mp h.symm
      rw [h.1, h.2]
      exact List.mem_singleton.mpr rfl
  | x :: s, a, r => by
    unfold rxLazy
    constructor
    · intro h
      rcases List.mem_cons.mp h with h | h
      · cases h
        exact ⟨rfl, fun c hc => by cases hc⟩
      · by_cases hx : p x = true
        · rw [if_pos hx] at h
          obtain ⟨y, hy, e⟩ := List.mem_map.mp h
          cases e
          obtain ⟨h1, h2⟩ := mem_rxLazy.mp (show (y.1, y.2) ∈ rxLazy p s from hy)
          refine ⟨by rw [h1]; rfl, fun c hc => ?_⟩
          rcases List.mem_cons.mp hc with rfl | hc
          · exact hx
          · exact h2 c hc
        · rw [if_neg hx] at h; cases h
    · rintro ⟨h1, h2⟩
      cases a with
      | nil =>
        simp only [List.nil_append] at h1
        rw [← h1]
        exact List.mem_cons_self
      | cons y a =>
        simp only [List.cons_append, List.cons.injEq] at h1
        obtain ⟨rfl, h1⟩ := h1
        rw [if_pos (h2 x List.mem_cons_self)]
        refine List.mem_cons_of_mem _ (List.mem_map.mpr ⟨(a, r), mem_rxLazy.mpr ⟨h1, fun c hc => h2 c (List.mem_cons_of_mem _ hc)⟩, rfl⟩)

theorem mem_rxGreedy {p : Byte → Bool} : ∀ {s a r : Bytes}, (a, r) ∈ rxGreedy p s ↔ s = a ++ r ∧ ∀ c ∈ a, p c = true
  | [], a, r => by
    unfold rxGreedy
    constructor
    · intro h
      cases List.mem_singleton.mp h
      exact ⟨rfl, fun c hc => by cases hc⟩
    · rintro ⟨h, -⟩
      have h := List.append_eq_nil_iff.mp h.symm
      rw [h.1, h.2]
      exact List.mem_singleton.mpr rfl
  | x :: s, a, r => by
    unfold rxGreedy
    constructor
    · intro h
      rcases List.mem_append.mp h with h | h
      · by_cases hx : p x = true
        · rw [if_pos hx] at h
          obtain ⟨y, hy, e⟩ := List.mem_map.mp h
          cases e
          obtain ⟨h1, h2⟩ := mem_rxGreedy.mp (show (y.1, y.2) ∈ rxGreedy p s from hy)
          refine ⟨by rw [h1]; rfl, fun c hc => ?_⟩
          rcases List.mem_cons.mp hc with rfl | hc
          · exact hx
          · exact h2 c hc
        · rw [if_neg hx] at h; cases h
      · cases List.mem_singleton.mp h
        exact ⟨rfl, fun c hc => by cases hc⟩
    · rintro ⟨h1, h2⟩
      cases a with
      | nil =>
        simp only [List.nil_append] at h1
        rw [← h1]
        exact List.mem_append_right _ (List.mem_singleton.mpr rfl)
      | cons y a =>
        simp only [List.cons_append, List.cons.injEq] at h1
        obtain ⟨rfl, h1⟩ := h1
        rw [if_pos (h2 x List.mem_cons_self)]
        exact List.mem_append_left _ (List.mem_map.mpr ⟨(a, r), mem_rxGreedy.mpr ⟨h1, fun c hc => h2 c (List.mem_cons_of_mem _ hc)⟩, rfl⟩)

theorem mem_plus {p : Byte → Bool} {q : Rx Bytes} (hq : ∀ {s a r}, (a, r) ∈ q s ↔ s = a ++ r ∧ ∀ c ∈ a, p c = true) {s a r : Bytes} :
    (a, r) ∈ ((rxOne p s).flatMap fun x => (q x.2).map fun r => (x.1 :: r.1, r.2)) ↔ s = a ++ r ∧ a ≠ [] ∧ ∀ c ∈ a, p c = true := by
  rw [List.mem_flatMap]
  constructor
  · rintro ⟨⟨c, s'⟩, hc, h⟩
    obtain ⟨h1, h2⟩ := mem_rxOne.mp hc
    obtain ⟨y, hy, e⟩ := List.mem_map.mp h
    cases e
    obtain ⟨h3, h4⟩ := hq.mp (show (y.1, y.2) ∈ q s' from hy)
    subst h1
    refine ⟨by rw [h3]; rfl, List.cons_ne_nil _ _, fun d hd => ?_⟩
    rcases List.mem_cons.mp hd with rfl | hd
    · exact h2
    · exact h4 d hd
  · rintro ⟨h1, h2, h3⟩
    cases a with
    | nil => exact absurd rfl h2
    | cons c a =>
      exact ⟨(c, a ++ r), mem_rxOne.mpr ⟨h1, h3 c List.mem_cons_self⟩,
        List.mem_map.mpr ⟨(a, r), hq.mpr ⟨rfl, fun d hd => h3 d (List.mem_cons_of_mem _ hd)⟩, rfl⟩⟩

theorem mem_rxGreedy1 {p : Byte → Bool} {s a r : Bytes} : (a, r) ∈ rxGreedy1 p s ↔ s = a ++ r ∧ a ≠ [] ∧ ∀ c ∈ a, p c = true :=
  mem_plus (q := rxGreedy p) mem_rxGreedy

theorem mem_rxLazy1 {p : Byte → Bool} {s a r : Bytes} : (a, r) ∈ rxLazy1 p s ↔ s = a ++ r ∧ a ≠ [] ∧ ∀ c ∈ a, p c = true :=
  mem_plus (q := rxLazy p) mem_rxLazy

theorem mem_rxText {t s r : Bytes} {u : Unit} : (u, r) ∈ rxText t s ↔ s = t ++ r := by
  unfold rxText
  by_cases h : t.isPrefixOf s = true
  · rw [if_pos h]
    obtain ⟨v, rfl⟩ := List.isPrefixOf_iff_prefix.mp h
    rw [List.drop_left]
    constructor
    · intro hm
      cases List.mem_singleton.mp hm
      rfl
    · intro hm
      rw [List.append_cancel_left hm]
      exact List.mem_singleton.mpr rfl
  · rw [if_neg h]
    constructor
    · intro hm; cases hm
    · intro hm
      exact absurd (List.isPrefixOf_iff_prefix.mpr ⟨r, hm.symm⟩) h

theorem mem_rxEnd {s r : Bytes} {u : Unit} : (u, r) ∈ rxEnd s ↔ s = r ∧ (r = [] ∨ r = [10]) := by
  unfold rxEnd
  by_cases h : s = [] ∨ s = [10]
  · rw [if_pos h]
    constructor
    · intro hm
      cases List.mem_singleton.mp hm
      exact ⟨rfl, h⟩
    · rintro ⟨rfl, -⟩
      exact List.mem_singleton.mpr rfl
  · rw [if_neg h]
    constructor
    · intro hm; cases hm
    · rintro ⟨rfl, h'⟩
      exact absurd h' h

theorem mem_rxOrigin {s r : Bytes} {g : Option Bytes} : (g, r) ∈ rxOrigin s ↔ ∃ c, reDot c = true ∧ (r = [] ∨ r = [10]) ∧
    ((g = none ∧ s = c :: 93 :: r) ∨ ∃ d, g = some d ∧ (∀ x ∈ d, reDot x = true) ∧ s = 65 :: 83 :: (d ++ c :: 93 :: r)) := by
  have hAs : ∀ {g : Option Bytes} {q : Bytes}, (g, q) ∈ rxAs s ↔
      (g = none ∧ s = q) ∨ ∃ d, g = some d ∧ (∀ x ∈ d, reDot x = true) ∧ s = 65 :: 83 :: (d ++ q) := by
    intro g q
    unfold rxAs
    rw [List.mem_append, List.mem_flatMap]
    constructor
    · rintro (⟨⟨u, v⟩, h1, h2⟩ | h)
      · obtain ⟨y, hy, e⟩ := List.mem_map.mp h2
        cases e
        obtain ⟨h3, h4⟩ := mem_rxLazy.mp (show (y.1, y.2) ∈ rxLazy reDot v from hy)
        exact Or.inr ⟨y.1, rfl, h4, by rw [mem_rxText.mp h1, h3]; rfl⟩
      · cases List.mem_singleton.mp h
        exact Or.inl ⟨rfl, rfl⟩
    · rintro (⟨rfl, rfl⟩ | ⟨d, rfl, h1, h2⟩)
      · exact Or.inr (List.mem_singleton.mpr rfl)
      · exact Or.inl ⟨((), d ++ q), mem_rxText.mpr h2, List.mem_map.mpr ⟨(d, q), mem_rxLazy.mpr ⟨rfl, h1⟩, rfl⟩⟩
  unfold rxOrigin
  rw [List.mem_flatMap]
  constructor
  · rintro ⟨⟨g', q⟩, h1, h⟩
    obtain ⟨⟨c, q2⟩, h2, h⟩ := List.mem_flatMap.mp h
    obtain ⟨⟨u, q3⟩, h3, h⟩ := List.mem_flatMap.mp h
    obtain ⟨⟨u', q4⟩, h4, e⟩ := List.mem_map.mp h
    cases e
    obtain ⟨e2, hc⟩ := mem_rxOne.mp h2
    have e3 := mem_rxText.mp h3
    obtain ⟨e4, hr⟩ := mem_rxEnd.mp h4
    simp only at e2 e3 e4
    subst e4 e3 e2
    exact ⟨c, hc, hr, hAs.mp h1⟩
  · rintro ⟨c, hc, hr, h⟩
    exact ⟨(g, c :: 93 :: r), hAs.mpr h, List.mem_flatMap.mpr ⟨(c, 93 :: r), mem_rxOne.mpr ⟨rfl, hc⟩,
      List.mem_flatMap.mpr ⟨((), r), mem_rxText.mpr rfl, List.mem_map.mpr ⟨((), r), mem_rxEnd.mpr ⟨rfl, hr⟩, rfl⟩⟩⟩⟩

theorem head_unique {α : Type} {l : List α} {a : α} (h1 : a ∈ l) (h2 : ∀ x ∈ l, x = a) : l.head? = some a := by
  cases l with
  | nil => cases h1
  | cons x l => rw [h2 x List.mem_cons_self]; rfl

theorem head_mem {α : Type} {l : List α} {a : α} (h : l.head? = some a) : a ∈ l := by
  cases l with
  | nil => cases h
  | cons x l => cases h; exact List.mem_cons_self

theorem split_last {c : Byte} {u v u' v' : Bytes} (h : u ++ c :: v = u' ++ c :: v') (hv : c ∉ v) (hv' : c ∉ v') : u = u' ∧ v = v' := by
  rcases List.append_eq_append_iff.mp h with ⟨w, h1, h2⟩ | ⟨w, h1, h2⟩
  · cases w with
    | nil =>
      simp only [List.append_nil] at h1
      simp only [List.nil_append, List.cons.injEq, true_and] at h2
      exact ⟨h1.symm, h2⟩
    | cons x w =>
      simp only [List.cons_append, List.cons.injEq] at h2
      exact absurd (by rw [h2.2]; simp) hv
  · cases w with
    | nil =>
      simp only [List.append_nil] at h1
      simp only [List.nil_append, List.cons.injEq, true_and] at h2
      exact ⟨h1, h2.symm⟩
    | cons x w =>
      simp only [List.cons_append, List.cons.injEq] at h2
      exact absurd (by rw [h2.2]; simp) hv'

theorem reDot_iff {c : Byte} : reDot c = true ↔ c ≠ 10 := by
  unfold reDot; simp

theorem all_dot {x : Bytes} : (∀ c ∈ x, reDot c = true) ↔ 10 ∉ x := by
  constructor
  · intro h hm
    exact reDot_iff.mp (h 10 hm) rfl
  · intro h c hc
    exact reDot_iff.mpr fun e => h (e ▸ hc)

theorem reSpace_iff : ∀ c : Byte, reSpace c = true ↔ GapChar c := by
  intro c
  unfold GapChar
  revert c
  decide

theorem reDigit_iff {c : Byte} : reDigit c = true ↔ 48 ≤ c.toNat ∧ c.toNat ≤ 57 := by
  unfold reDigit; simp

theorem number_iff {d : Bytes} : (∃ a, Digits a d) ↔ d ≠ [] ∧ ∀ c ∈ d, reDigit c = true := by
  have key : ∀ d : Bytes, (∃ ds, d.mapM decVal = some ds) ↔ ∀ c ∈ d, reDigit c = true := by
    intro d
    induction d with
    | nil => simp
    | cons c d ih =>
      rw [List.forall_mem_cons, ← ih]
      constructor
      · rintro ⟨ds, h⟩
        have h := (mapM_decVal _ _).mp h
        cases ds with
        | nil => cases h
        | cons x ds =>
          simp only [List.map_cons, List.cons.injEq] at h
          refine ⟨?_, ds, (mapM_decVal _ _).mpr h.2⟩
          have h1 := h.1
          unfold decVal at h1
          split at h1
          · rename_i hc; exact reDigit_iff.mpr hc
          · cases h1
      · rintro ⟨hc, ds, h⟩
        refine ⟨(c.toNat - 48) :: ds, (mapM_decVal _ _).mpr ?_⟩
        simp only [List.map_cons, List.cons.injEq]
        refine ⟨?_, (mapM_decVal _ _).mp h⟩
        unfold decVal
        rw [if_pos (reDigit_iff.mp hc)]
  constructor
  · rintro ⟨a, h⟩
    have h := digitsOf_iff.mpr h
    unfold digitsOf at h
    cases d with
    | nil => cases h
    | cons c d =>
      simp only [List.isEmpty_cons, Bool.false_eq_true, if_false, Option.map_eq_some_iff] at h
      obtain ⟨ds, h, -⟩ := h
      exact ⟨List.cons_ne_nil _ _, (key _).mp ⟨ds, h⟩⟩
  · rintro ⟨h1, h2⟩
    obtain ⟨ds, h⟩ := (key _).mpr h2
    cases d with
    | nil => exact absurd rfl h1
    | cons c d =>
      refine ⟨ds.foldl (fun acc d => acc * 10 + d) 0, digitsOf_iff.mp ?_⟩
      unfold digitsOf
      simp only [List.isEmpty_cons, Bool.false_eq_true, if_false, h, Option.map_some]

theorem number_not {d : Bytes} (h : ∀ c ∈ d, reDigit c = true) {c : Byte} (hc : reDigit c = false) : c ∉ d := by
  intro hm
  rw [h c hm] at hc
  cases hc

theorem mem_pathRe {s d : Bytes} : d ∈ ((rxGreedy1 reSpace s).flatMap fun x =>
    (rxText strAsPath x.2).flatMap fun x =>
      (rxGreedy reDot x.2).flatMap fun x =>
        (rxText [32] x.2).flatMap fun x =>
          (rxGreedy1 reDigit x.2).flatMap fun d =>
            (rxText [32, 123] d.2).flatMap fun x =>
              (rxGreedy1 reDigit x.2).flatMap fun x =>
                (rxText [125] x.2).flatMap fun x => (rxEnd x.2).map fun _ => d.1) ↔
    ∃ w x e r, (w ≠ [] ∧ ∀ c ∈ w, reSpace c = true) ∧ (d ≠ [] ∧ ∀ c ∈ d, reDigit c = true) ∧ (e ≠ [] ∧ ∀ c ∈ e, reDigit c = true) ∧
      (∀ c ∈ x, reDot c = true) ∧ (r = [] ∨ r = [10]) ∧
      s = w ++ (strAsPath ++ (x ++ ([32] ++ (d ++ ([32, 123] ++ (e ++ ([125] ++ r))))))) := by
  constructor
  · intro h
    obtain ⟨⟨w, s1⟩, h1, h⟩ := List.mem_flatMap.mp h
    obtain ⟨⟨_, s2⟩, h2, h⟩ := List.mem_flatMap.mp h
    obtain ⟨⟨x, s3⟩, h3, h⟩ := List.mem_flatMap.mp h
    obtain ⟨⟨_, s4⟩, h4, h⟩ := List.mem_flatMap.mp h
    obtain ⟨⟨d', s5⟩, h5, h⟩ := List.mem_flatMap.mp h
    obtain ⟨⟨_, s6⟩, h6, h⟩ := List.mem_flatMap.mp h
    obtain ⟨⟨e, s7⟩, h7, h⟩ := List.mem_flatMap.mp h
    obtain ⟨⟨_, s8⟩, h8, h⟩ := List.mem_flatMap.mp h
    obtain ⟨⟨_, r⟩, h9, ed⟩ := List.mem_map.mp h
    simp only at ed
    subst ed
    obtain ⟨e1, hw⟩ := mem_rxGreedy1.mp h1
    have e2 := mem_rxText.mp h2
    obtain ⟨e3, hx⟩ := mem_rxGreedy.mp h3
    have e4 := mem_rxText.mp h4
    obtain ⟨e5, hd⟩ := mem_rxGreedy1.mp h5
    have e6 := mem_rxText.mp h6
    obtain ⟨e7, he⟩ := mem_rxGreedy1.mp h7
    have e8 := mem_rxText.mp h8
    obtain ⟨e9, hr⟩ := mem_rxEnd.mp h9
    simp only at e1 e2 e3 e4 e5 e6 e7 e8 e9
    exact ⟨w, x, e, r, hw, hd, he, hx, hr, by rw [e1, e2, e3, e4, e5, e6, e7, e8, e9]⟩
  · rintro ⟨w, x, e, r, hw, hd, he, hx, hr, rfl⟩
    exact List.mem_flatMap.mpr ⟨(w, _), mem_rxGreedy1.mpr ⟨rfl, hw⟩,
      List.mem_flatMap.mpr ⟨((), _), mem_rxText.mpr rfl,
      List.mem_flatMap.mpr ⟨(x, _), mem_rxGreedy.mpr ⟨rfl, hx⟩,
      List.mem_flatMap.mpr ⟨((), _), mem_rxText.mpr rfl,
      List.mem_flatMap.mpr ⟨(d, _), mem_rxGreedy1.mpr ⟨rfl, hd⟩,
      List.mem_flatMap.mpr ⟨((), _), mem_rxText.mpr rfl,
      List.mem_flatMap.mpr ⟨(e, _), mem_rxGreedy1.mpr ⟨rfl, he⟩,
      List.mem_flatMap.mpr ⟨((), _), mem_rxText.mpr rfl,
      List.mem_map.mpr ⟨((), r), mem_rxEnd.mpr ⟨rfl, hr⟩, rfl⟩⟩⟩⟩⟩⟩⟩⟩⟩

theorem pathLine_form {s d : Bytes} : PathLine s d ↔
    ∃ w x e, (w ≠ [] ∧ ∀ c ∈ w, reSpace c = true) ∧ (d ≠ [] ∧ ∀ c ∈ d, reDigit c = true) ∧ (e ≠ [] ∧ ∀ c ∈ e, reDigit c = true) ∧
      (∀ c ∈ x, reDot c = true) ∧ s ++ [10] = w ++ (strAsPath ++ (x ++ ([32] ++ (d ++ ([32, 123] ++ (e ++ ([125] ++ [10]))))))) := by
  have ea : ascii "BGP.as_path:" = strAsPath := by decide
  have e1 : ascii " " = [32] := by decide
  have e2 : ascii " {" = [32, 123] := by decide
  have e3 : ascii "}" = [125] := by decide
  unfold PathLine
  rw [ea, e1, e2, e3]
  have hsp : ∀ w : Bytes, (∀ c ∈ w, GapChar c) ↔ ∀ c ∈ w, reSpace c = true := fun w =>
    ⟨fun h c hc => (reSpace_iff c).mpr (h c hc), fun h c hc => (reSpace_iff c).mp (h c hc)⟩
  constructor
  · rintro ⟨w, x, e, hw, hd, he, hx, rfl⟩
    exact ⟨w, x, e, ⟨hw.1, (hsp w).mp hw.2⟩, number_iff.mp hd, number_iff.mp he, all_dot.mpr hx, by simp only [List.append_assoc]⟩
  · rintro ⟨w, x, e, hw, hd, he, hx, h⟩
    refine ⟨w, x, e, ⟨hw.1, (hsp w).mpr hw.2⟩, number_iff.mpr hd, number_iff.mpr he, all_dot.mp hx, ?_⟩
    refine List.append_cancel_right (bs := [10]) ?_
    rw [h]
    simp only [List.append_assoc]

theorem pathLine_unique {s d d' : Bytes} (h : PathLine s d) (h' : PathLine s d') : d = d' := by
  obtain ⟨w, x, e, -, hd, he, -, h⟩ := pathLine_form.mp h
  obtain ⟨w', x', e', -, hd', he', -, h'⟩ := pathLine_form.mp h'
  rw [h] at h'
  have n1 : reDigit 123 = false := by decide
  have n2 : reDigit 32 = false := by decide
  have h2 : (w ++ strAsPath ++ x ++ [32] ++ d ++ [32]) ++ 123 :: e = (w' ++ strAsPath ++ x' ++ [32] ++ d' ++ [32]) ++ 123 :: e' := by
    refine List.append_cancel_right (bs := [125, 10]) ?_
    simpa only [List.append_assoc, List.cons_append, List.nil_append] using h'
  have h3 := (split_last h2 (number_not he.2 n1) (number_not he'.2 n1)).1
  have h4 : (w ++ strAsPath ++ x) ++ 32 :: d = (w' ++ strAsPath ++ x') ++ 32 :: d' := by
    refine List.append_cancel_right (bs := [32]) ?_
    simpa only [List.append_assoc, List.cons_append, List.nil_append] using h3
  exact (split_last h4 (number_not hd.2 n2) (number_not hd'.2 n2)).2

theorem pathRe_iff {s d : Bytes} : pathRe (s ++ [10]) = some d ↔ PathLine s d := by
  have hmem : ∀ d', d' ∈ _ ↔ PathLine s d' := fun d' => by
    refine Iff.trans (mem_pathRe (s := s ++ [10]) (d := d')) ?_
    rw [pathLine_form]
    constructor
    · rintro ⟨w, x, e, r, hw, hd, he, hx, hr, h⟩
      rcases hr with rfl | rfl
      · exfalso
        have := congrArg List.getLast? h
        rw [List.getLast?_append] at this
        simp only [← List.append_assoc] at this
        rw [List.append_nil, List.getLast?_append] at this
        cases this
      · exact ⟨w, x, e, hw, hd, he, hx, h⟩
    · rintro ⟨w, x, e, hw, hd, he, hx, h⟩
      exact ⟨w, x, e, [10], hw, hd, he, hx, Or.inr rfl, h⟩
  unfold pathRe
  constructor
  · intro h
    exact (hmem d).mp (head_mem h)
  · intro h
    exact head_unique ((hmem d).mpr h) fun x hx => pathLine_unique ((hmem x).mp hx) h

/-! ## Routes -/

theorem lazy_head {α : Type} {p : Byte → Bool} {f : Bytes × Bytes → List α} : ∀ {u v : Bytes} {y : α}, (∀ c ∈ u, p c = true) →
    (∀ u1 u2, u = u1 ++ u2 → u2 ≠ [] → f (u1, u2 ++ v) = []) → (f (u, v)).head? = some y →
    ((rxLazy p (u ++ v)).flatMap f).head? = some y
  | [], v, y, _, _, hy => by
    cases v with
    | nil =>
      unfold rxLazy
      simpa using hy
    | cons c v =>
      unfold rxLazy
      simp only [List.nil_append, List.flatMap_cons]
      rw [List.head?_append, hy]
      rfl
  | c :: u, v, y, hp, hs, hy => by
    unfold rxLazy
    simp only [List.cons_append, List.flatMap_cons]
    have h0 : f ([], c :: (u ++ v)) = [] := hs [] (c :: u) rfl (List.cons_ne_nil _ _)
    rw [if_pos (hp c List.mem_cons_self), h0, List.nil_append, List.flatMap_map]
    refine lazy_head (f := fun r => f (c :: r.1, r.2)) (fun d hd => hp d (List.mem_cons_of_mem _ hd)) (fun u1 u2 h h2 => ?_) hy
    exact hs (c :: u1) u2 (by rw [h]; rfl) h2

/-- The part of the expression behind the network -/
def rxTail : Rx (Option Bytes) := fun s =>
  (rxGreedy1 reSpace s).flatMap fun x =>
    (rxLazy1 reDot x.2).flatMap fun x =>
      (rxText [91] x.2).flatMap fun x => (rxOrigin x.2).map fun g => (g.1, g.2)

theorem mem_rxTail {s r : Bytes} {g : Option Bytes} : (g, r) ∈ rxTail s ↔
    ∃ w x t, (w ≠ [] ∧ ∀ c ∈ w, reSpace c = true) ∧ (x ≠ [] ∧ ∀ c ∈ x, reDot c = true) ∧ (g, r) ∈ rxOrigin t ∧ s = w ++ (x ++ 91 :: t) := by
  unfold rxTail
  constructor
  · intro h
    obtain ⟨⟨w, s1⟩, h1, h⟩ := List.mem_flatMap.mp h
    obtain ⟨⟨x, s2⟩, h2, h⟩ := List.mem_flatMap.mp h
    obtain ⟨⟨_, s3⟩, h3, h⟩ := List.mem_flatMap.mp h
    obtain ⟨y, h4, e⟩ := List.mem_map.mp h
    cases e
    obtain ⟨e1, hw⟩ := mem_rxGreedy1.mp h1
    obtain ⟨e2, hx⟩ := mem_rxLazy1.mp h2
    have e3 := mem_rxText.mp h3
    simp only at e1 e2 e3 h4
    exact ⟨w, x, s3, hw, hx, h4, by rw [e1, e2, e3]; rfl⟩
  · rintro ⟨w, x, t, hw, hx, ho, rfl⟩
    exact List.mem_flatMap.mpr ⟨(w, _), mem_rxGreedy1.mpr ⟨rfl, hw⟩,
      List.mem_flatMap.mpr ⟨(x, _), mem_rxLazy1.mpr ⟨rfl, hx⟩,
      List.mem_flatMap.mpr ⟨((), _), mem_rxText.mpr rfl, List.mem_map.mpr ⟨(g, r), ho, rfl⟩⟩⟩⟩

theorem routeRe_eq (line : Bytes) : routeRe line = ((rxOne reSpace line).flatMap fun x =>
    (rxLazy1 reDot x.2).flatMap fun net => (rxTail net.2).map fun g => (net.1, g.1)).head? := by
  unfold routeRe rxTail
  simp only [List.map_flatMap, List.map_map]
  rfl

theorem routeRe_none {line : Bytes} (h : 91 ∉ line) : routeRe line = none := by
  rw [routeRe_eq, List.head?_eq_none_iff]
  refine List.eq_nil_iff_forall_not_mem.mpr fun y hy => h ?_
  obtain ⟨⟨c, s1⟩, h1, hy⟩ := List.mem_flatMap.mp hy
  obtain ⟨⟨net, s2⟩, h2, hy⟩ := List.mem_flatMap.mp hy
  obtain ⟨⟨g, r⟩, h3, -⟩ := List.mem_map.mp hy
  obtain ⟨w, x, t, -, -, -, e3⟩ := mem_rxTail.mp h3
  have e1 := (mem_rxOne.mp h1).1
  have e2 := (mem_rxLazy1.mp h2).1
  simp only at e1 e2 e3
  rw [e1, e2, e3]
  simp

/-- What stands behind the bracket -/
def originText (origin : Option Bytes) (mark : Byte) : Bytes :=
  (match origin with | none => [] | some d => 65 :: 83 :: d) ++ [mark, 93, 10]

theorem rxOrigin_text {origin : Option Bytes} {mark : Byte} (hd : ∀ d, origin = some d → ∀ c ∈ d, reDigit c = true) (hm : mark ≠ 10)
    {g : Option Bytes} {r : Bytes} : (g, r) ∈ rxOrigin (originText origin mark) ↔ g = origin ∧ r = [10] := by
  rw [mem_rxOrigin]
  unfold originText
  constructor
  · rintro ⟨c, hc, hr, ⟨rfl, e⟩ | ⟨d', rfl, hd', e⟩⟩
    · cases origin with
      | none =>
        simp only [List.nil_append, List.cons.injEq, true_and] at e
        exact ⟨rfl, e.2.symm⟩
      | some d =>
        simp only [List.cons_append, List.cons.injEq] at e
        exact absurd e.2.1 (by decide)
    · cases origin with
      | none =>
        simp only [List.nil_append, List.cons.injEq] at e
        exact absurd e.2.1 (by decide)
      | some d =>
        simp only [List.cons_append, List.cons.injEq, true_and] at e
        rcases hr with rfl | rfl
        · have := congrArg List.getLast? e
          rw [List.getLast?_append, List.getLast?_append] at this
          exact absurd this (by simp)
        · have e' : d ++ [mark] ++ [93, 10] = d' ++ [c] ++ [93, 10] := by simpa using e
          have e' := List.append_cancel_right e'
          exact ⟨by rw [(List.append_inj' e' rfl).1], rfl⟩
  · rintro ⟨rfl, rfl⟩
    refine ⟨mark, reDot_iff.mpr hm, Or.inr rfl, ?_⟩
    cases g with
    | none => exact Or.inl ⟨rfl, rfl⟩
    | some d =>
      refine Or.inr ⟨d, rfl, fun x hx => ?_, rfl⟩
      refine reDot_iff.mpr fun e => ?_
      have := hd d rfl x hx
      rw [e] at this
      cases this

theorem rxTail_text {info : Bytes} {origin : Option Bytes} {mark : Byte} (hi : info ≠ [] ∧ 10 ∉ info ∧ ¬ ascii "[AS" <:+: info)
    (hd : ∀ d, origin = some d → ∀ c ∈ d, reDigit c = true) (hm : mark ≠ 10) {g : Option Bytes} {r : Bytes} :
    (g, r) ∈ rxTail (32 :: (info ++ 91 :: originText origin mark)) ↔ g = origin ∧ r = [10] := by
  rw [mem_rxTail]
  constructor
  · rintro ⟨w, x, t, hw, hx, ho, e⟩
    have hlong : 3 ≤ (originText origin mark).length := by unfold originText; simp
    have hAS : ascii "[AS" = [91, 65, 83] := by decide
    rw [hAS] at hi
    -- the bracket is the last one
    have key : t = originText origin mark := by
      have e' : (32 :: info) ++ 91 :: originText origin mark = (w ++ x) ++ 91 :: t := by simpa using e
      rcases List.append_eq_append_iff.mp e' with ⟨v, h1, h2⟩ | ⟨v, h1, h2⟩
      · cases v with
        | nil => simp only [List.nil_append, List.cons.injEq, true_and] at h2; exact h2.symm
        | cons y v =>
          -- a bracket behind the last one
          exfalso
          simp only [List.cons_append, List.cons.injEq] at h2
          have h2 := h2.2
          obtain ⟨c, -, hr, ho⟩ := mem_rxOrigin.mp ho
          have hno : ∀ d, origin = some d → 91 ∉ d := fun d h => number_not (hd d h) (by decide)
          -- only the mark can be this bracket
          have ht : t = [93, 10] := by
            unfold originText at h2
            cases origin with
            | none =>
              simp only [List.nil_append] at h2
              cases v with
              | nil => simp only [List.nil_append, List.cons.injEq] at h2; exact h2.2.symm
              | cons a v =>
                simp only [List.cons_append, List.cons.injEq] at h2
                obtain ⟨-, h2⟩ := h2
                cases v with
                | nil => simp only [List.nil_append, List.cons.injEq] at h2; exact absurd h2.1 (by decide)
                | cons b v =>
                  simp only [List.cons_append, List.cons.injEq] at h2
                  obtain ⟨-, h2⟩ := h2
                  cases v with
                  | nil => simp only [List.nil_append, List.cons.injEq] at h2; exact absurd h2.1 (by decide)
                  | cons b v => simp at h2
            | some d =>
              simp only at h2
              have hno' : (91 : Byte) ∉ 65 :: 83 :: d := by
                intro hm'
                rcases List.mem_cons.mp hm' with h | hm'
                · exact absurd h (by decide)
                · rcases List.mem_cons.mp hm' with h | hm'
                  · exact absurd h (by decide)
                  · exact hno d rfl hm'
              rcases List.append_eq_append_iff.mp h2 with ⟨z, h3, h4⟩ | ⟨z, h3, h4⟩
              · cases z with
                | nil => simp only [List.nil_append, List.cons.injEq] at h4; exact h4.2.symm
                | cons a z =>
                  simp only [List.cons_append, List.cons.injEq] at h4
                  obtain ⟨-, h4⟩ := h4
                  cases z with
                  | nil => simp only [List.nil_append, List.cons.injEq] at h4; exact absurd h4.1 (by decide)
                  | cons b z =>
                    simp only [List.cons_append, List.cons.injEq] at h4
                    obtain ⟨-, h4⟩ := h4
                    cases z with
                    | nil => simp only [List.nil_append, List.cons.injEq] at h4; exact absurd h4.1 (by decide)
                    | cons b z => simp at h4
              · cases z with
                | nil => simp only [List.nil_append, List.cons.injEq] at h4; exact h4.2
                | cons a z =>
                  simp only [List.cons_append, List.cons.injEq] at h4
                  exact absurd (by rw [h3, ← h4.1]; simp) hno'
          rcases ho with ⟨-, e⟩ | ⟨d', -, -, e⟩
          · rw [ht] at e
            simp only [List.cons.injEq] at e
            exact absurd e.2.1 (by decide)
          · rw [ht] at e
            simp only [List.cons.injEq] at e
            exact absurd e.1 (by decide)
      · cases v with
        | nil => simp only [List.nil_append, List.cons.injEq, true_and] at h2; exact h2
        | cons y v =>
          -- a bracket in the text between
          exfalso
          simp only [List.cons_append, List.cons.injEq] at h2
          obtain ⟨rfl, h2⟩ := h2
          have hin : [91] ++ v <:+: info := by
            have hne : w ++ x ≠ [] := by
              intro h; exact hw.1 (List.append_eq_nil_iff.mp h).1
            cases hwx : w ++ x with
            | nil => exact absurd hwx hne
            | cons a b =>
              rw [hwx, List.cons_append, List.cons.injEq] at h1
              exact ⟨b, [], by rw [h1.2]; simp⟩
          obtain ⟨c, -, hr, ho⟩ := mem_rxOrigin.mp ho
          rcases ho with ⟨-, e⟩ | ⟨d', -, -, e⟩
          · rw [h2] at e
            have := congrArg List.length e
            rcases hr with rfl | rfl <;> simp only [List.length_append, List.length_cons, List.length_nil] at this <;> omega
          · rw [h2] at e
            cases v with
            | nil =>
              simp only [List.nil_append, List.cons.injEq] at e
              exact absurd e.1 (by decide)
            | cons a v =>
              simp only [List.cons_append, List.cons.injEq] at e
              obtain ⟨rfl, e⟩ := e
              cases v with
              | nil =>
                simp only [List.nil_append, List.cons.injEq] at e
                exact absurd e.1 (by decide)
              | cons b v =>
                simp only [List.cons_append, List.cons.injEq] at e
                obtain ⟨rfl, e⟩ := e
                refine hi.2.2 (List.IsInfix.trans ?_ hin)
                exact ⟨[], v, rfl⟩
    rw [key] at ho
    exact (rxOrigin_text hd hm).mp ho
  · intro h
    exact ⟨[32], info, originText origin mark, ⟨by simp, by decide⟩, ⟨hi.1, all_dot.mpr hi.2.1⟩, (rxOrigin_text hd hm).mpr h, rfl⟩

theorem route_text (name info : Bytes) (origin : Option Bytes) (mark : Byte) :
    (RouteLine.route name info origin mark).text ++ [10] = 32 :: (name ++ 32 :: (info ++ 91 :: originText origin mark)) := by
  have e1 : ascii "[" = [91] := by decide
  have e2 : ascii "]" = [93] := by decide
  have e3 : ascii "AS" = [65, 83] := by decide
  unfold RouteLine.text originText
  rw [e1, e2, e3]
  cases origin <;> simp

theorem routeRe_digits {name info : Bytes} {origin : Option Bytes} {mark : Byte} (hn1 : name ≠ []) (hn2 : ∀ c ∈ name, ¬ GapChar c)
    (hi : info ≠ [] ∧ 10 ∉ info ∧ ¬ ascii "[AS" <:+: info) (hd : ∀ d, origin = some d → ∀ c ∈ d, reDigit c = true) (hm : mark ≠ 10) :
    routeRe ((RouteLine.route name info origin mark).text ++ [10]) = some (name, origin) := by
  rw [routeRe_eq, route_text]
  have hsp : ∀ c ∈ name, reSpace c = false := fun c hc => by
    cases e : reSpace c with
    | false => rfl
    | true => exact absurd ((reSpace_iff c).mp e) (hn2 c hc)
  have hdot : ∀ c ∈ name, reDot c = true := fun c hc => reDot_iff.mpr fun e => by
    subst e
    exact hn2 _ hc (by decide)
  have h1 : rxOne reSpace (32 :: (name ++ 32 :: (info ++ 91 :: originText origin mark))) = [(32, name ++ 32 :: (info ++ 91 :: originText origin mark))] := rfl
  rw [h1]
  simp only [List.flatMap_cons, List.flatMap_nil, List.append_nil]
  cases name with
  | nil => exact absurd rfl hn1
  | cons c name =>
    have h2 : rxLazy1 reDot (c :: name ++ 32 :: (info ++ 91 :: originText origin mark)) =
        (rxLazy reDot (name ++ 32 :: (info ++ 91 :: originText origin mark))).map fun r => (c :: r.1, r.2) := by
      unfold rxLazy1 rxOne
      simp only [List.cons_append]
      rw [if_pos (hdot c List.mem_cons_self)]
      simp
    rw [h2, List.flatMap_map]
    refine lazy_head (fun d hd => hdot d (List.mem_cons_of_mem _ hd)) (fun u1 u2 hu h2 => ?_) ?_
    · simp only [List.map_eq_nil_iff]
      refine List.eq_nil_iff_forall_not_mem.mpr fun y hy => ?_
      obtain ⟨w, x, t, hw, -, -, e⟩ := mem_rxTail.mp (show (y.1, y.2) ∈ _ from hy)
      cases u2 with
      | nil => exact h2 rfl
      | cons a u2 =>
        cases w with
        | nil => exact hw.1 rfl
        | cons b w =>
          simp only [List.cons_append, List.cons.injEq] at e
          have ha := hsp a (List.mem_cons_of_mem _ (by rw [hu]; simp))
          rw [e.1, hw.2 b List.mem_cons_self] at ha
          cases ha
    · simp only
      refine head_unique (List.mem_map.mpr ⟨(origin, [10]), (rxTail_text hi hd hm).mpr ⟨rfl, rfl⟩, rfl⟩) fun y hy => ?_
      obtain ⟨z, hz, rfl⟩ := List.mem_map.mp hy
      rw [((rxTail_text hi hd hm).mp (show (z.1, z.2) ∈ _ from hz)).1]

theorem routeRe_route {name info : Bytes} {origin : Option Bytes} {mark : Byte} (h : (RouteLine.route name info origin mark).Ok) :
    routeRe ((RouteLine.route name info origin mark).text ++ [10]) = some (name, origin) := by
  obtain ⟨⟨hn1, hn2⟩, hi, hd, hm⟩ := h
  exact routeRe_digits hn1 hn2 hi (fun d h => (number_iff.mp (hd d h)).2) hm

/-! ## Lines -/

theorem cutNewline_line : ∀ {l r : Bytes}, 10 ∉ l → cutNewline (l ++ 10 :: r) = some (l ++ [10], r)
  | [], r, _ => rfl
  | c :: l, r, h => by
    have hc : c ≠ 10 := fun e => h (by rw [e]; exact List.mem_cons_self)
    simp only [List.cons_append, cutNewline]
    rw [if_neg hc, cutNewline_line fun hm => h (List.mem_cons_of_mem _ hm)]
    rfl

theorem cutNewline_none : ∀ {l : Bytes}, 10 ∉ l → cutNewline l = none
  | [], _ => rfl
  | c :: l, h => by
    have hc : c ≠ 10 := fun e => h (by rw [e]; exact List.mem_cons_self)
    simp only [cutNewline]
    rw [if_neg hc, cutNewline_none fun hm => h (List.mem_cons_of_mem _ hm)]
    rfl

/-- A line that the loop passes -/
def PassedLine (t : Bytes) : Prop := t ≠ [] ∧ 10 ∉ t ∧ birdLine (t ++ [10]) ≠ .stop

/-- What is returned for a line -/
def yieldOf (t : Bytes) : List Bytes := match birdLine (t ++ [10]) with | .line l => [l] | _ => []

theorem split_newline {buf rest l t : Bytes} (hl : 10 ∉ l) (h : buf ++ rest = l ++ 10 :: t) :
    10 ∉ buf ∨ ∃ b, buf = l ++ 10 :: b ∧ b ++ rest = t := by
  rcases List.append_eq_append_iff.mp h with ⟨w, h1, h2⟩ | ⟨w, h1, h2⟩
  · exact Or.inl fun hm => hl (by rw [h1]; exact List.mem_append_left _ hm)
  · cases w with
    | nil =>
      simp only [List.append_nil] at h1
      exact Or.inl (by rw [h1]; exact hl)
    | cons x w =>
      simp only [List.cons_append, List.cons.injEq] at h2
      obtain ⟨rfl, h2⟩ := h2
      exact Or.inr ⟨w, h1, h2.symm⟩

theorem head_line {l : Bytes} (h1 : l ≠ []) (h2 : 10 ∉ l) (r : Bytes) : (l ++ r).head? ≠ some 10 := by
  cases l with
  | nil => exact absurd rfl h1
  | cons c l =>
    intro h
    simp only [List.cons_append, List.head?_cons, Option.some.injEq] at h
    exact h2 (by rw [h]; exact List.mem_cons_self)

theorem birdLines_none {buf : Bytes} (h : 10 ∉ buf) : ∀ fuel, birdLines fuel buf = ([], some buf)
  | 0 => rfl
  | fuel + 1 => by
    unfold birdLines
    have hh : buf.head? ≠ some 10 := by
      cases buf with
      | nil => simp
      | cons c b =>
        intro e
        simp only [List.head?_cons, Option.some.injEq] at e
        exact h (by rw [e]; exact List.mem_cons_self)
    rw [if_neg hh]
    simp only [cutNewline_none h]

theorem birdLines_line {l b : Bytes} (hl : l ≠ [] ∧ 10 ∉ l) (fuel : Nat) : birdLines (fuel + 1) (l ++ 10 :: b) =
    match birdLine (l ++ [10]) with
    | .stop => ([], none)
    | .skip => birdLines fuel b
    | .line x => (match birdLines fuel b with | (ls, buffer) => (x :: ls, buffer)) := by
  conv => lhs; unfold birdLines
  rw [if_neg (head_line hl.1 hl.2 _)]
  simp only [cutNewline_line hl.2]
  cases birdLine (l ++ [10]) <;> rfl

/-- One round of the loop: the end of the output, or all lines that are complete -/
theorem birdLines_spec {last rest more : Bytes} (hlast : last ≠ [] ∧ 10 ∉ last) (hstop : birdLine (last ++ [10]) = .stop) :
    ∀ (lines : List Bytes) (fuel : Nat) (buf : Bytes), (∀ t ∈ lines, PassedLine t) → buf.length ≤ fuel →
    buf ++ rest = (lines.map (· ++ [10])).flatten ++ (last ++ 10 :: more) →
    birdLines fuel buf = (lines.flatMap yieldOf, none) ∨
    ∃ before after b, lines = before ++ after ∧ birdLines fuel buf = (before.flatMap yieldOf, some b) ∧ 10 ∉ b ∧
      b ++ rest = (after.map (· ++ [10])).flatten ++ (last ++ 10 :: more)
  | [], fuel, buf, _, hf, h => by
    simp only [List.map_nil, List.flatten_nil, List.nil_append] at h
    rcases split_newline hlast.2 h with hn | ⟨b, rfl, hb⟩
    · exact Or.inr ⟨[], [], buf, rfl, birdLines_none hn fuel, hn, h⟩
    · cases fuel with
      | zero => simp at hf
      | succ fuel =>
        rw [birdLines_line hlast, hstop]
        exact Or.inl rfl
  | t :: lines, fuel, buf, hp, hf, h => by
    have ht := hp t List.mem_cons_self
    have h' : buf ++ rest = t ++ 10 :: ((lines.map (· ++ [10])).flatten ++ (last ++ 10 :: more)) := by
      rw [h]; simp
    rcases split_newline ht.2.1 h' with hn | ⟨b, rfl, hb⟩
    · exact Or.inr ⟨[], t :: lines, buf, rfl, birdLines_none hn fuel, hn, h⟩
    · cases fuel with
      | zero => simp at hf
      | succ fuel =>
        rw [birdLines_line ⟨ht.1, ht.2.1⟩]
        have hf' : b.length ≤ fuel := by
          simp only [List.length_append, List.length_cons] at hf
          omega
        have ih := birdLines_spec hlast hstop lines fuel b (fun x hx => hp x (List.mem_cons_of_mem _ hx)) hf' hb
        have hy : ∀ l, (t :: l).flatMap yieldOf = yieldOf t ++ l.flatMap yieldOf := fun l => rfl
        cases e : birdLine (t ++ [10]) with
        | stop => exact absurd e ht.2.2
        | skip =>
          have hyt : yieldOf t = [] := by unfold yieldOf; rw [e]
          simp only
          rcases ih with ih | ⟨before, after, b', h1, h2, h3, h4⟩
          · exact Or.inl (by rw [ih, hy, hyt]; rfl)
          · exact Or.inr ⟨t :: before, after, b', by rw [h1]; rfl, by rw [h2, hy, hyt]; rfl, h3, h4⟩
        | line x =>
          have hyt : yieldOf t = [x] := by unfold yieldOf; rw [e]
          simp only
          rcases ih with ih | ⟨before, after, b', h1, h2, h3, h4⟩
          · exact Or.inl (by rw [ih, hy, hyt]; rfl)
          · exact Or.inr ⟨t :: before, after, b', by rw [h1]; rfl, by rw [h2, hy, hyt]; rfl, h3, h4⟩

theorem birdRead_spec {last more : Bytes} (hlast : last ≠ [] ∧ 10 ∉ last) (hstop : birdLine (last ++ [10]) = .stop) :
    ∀ (chunks : List Bytes) (lines : List Bytes) (buf : Bytes), (∀ t ∈ lines, PassedLine t) → 10 ∉ buf →
    buf ++ chunks.flatten = (lines.map (· ++ [10])).flatten ++ (last ++ 10 :: more) →
    birdRead buf chunks = (lines.flatMap yieldOf, true)
  | [], lines, buf, _, hb, h => by
    exfalso
    simp only [List.flatten_nil, List.append_nil] at h
    exact hb (by rw [h]; simp)
  | c :: cs, lines, buf, hp, hb, h => by
    have h' : (buf ++ c) ++ cs.flatten = (lines.map (· ++ [10])).flatten ++ (last ++ 10 :: more) := by
      rw [← h]; simp
    unfold birdRead
    rcases birdLines_spec hlast hstop lines _ (buf ++ c) hp (Nat.le_refl _) h' with e | ⟨before, after, b, h1, e, h3, h4⟩
    · rw [e]
    · rw [e]
      simp only
      have hp' : ∀ t ∈ after, PassedLine t := fun t ht => hp t (by rw [h1]; exact List.mem_append_right _ ht)
      rw [birdRead_spec hlast hstop cs after b hp' h3 h4, h1, List.flatMap_append]

theorem birdLine_content {t : Bytes} (h : PlainLine t) : ∃ s, BirdText t s ∧ birdLine (t ++ [10]) = .line (s ++ [10]) := by
  obtain ⟨h1, h2, h3, h4⟩ := h
  have e3 : ascii "0000" = [48, 48, 48, 48] := by decide
  have e4 : ascii "0001" = [48, 48, 48, 49] := by decide
  rw [e3] at h3
  rw [e4] at h4
  have hshort : t.length ≤ 4 → BirdText t t := fun hl => Or.inr ⟨fun code c s' hc _ _ e => by
    have := congrArg List.length e
    simp only [List.length_append, List.length_cons] at this
    omega, rfl⟩
  match t with
  | [] => exact absurd rfl h1
  | [a] => exact ⟨_, hshort (by simp), rfl⟩
  | [a, b] => exact ⟨_, hshort (by simp), rfl⟩
  | [a, b, c] => exact ⟨_, hshort (by simp), rfl⟩
  | [a, b, c, d] =>
    refine ⟨_, hshort (by simp), ?_⟩
    simp only [List.cons_append, List.nil_append, birdLine]
    have : ((10 : Byte) == 32 || (10 : Byte) == 45) = false := by decide
    rw [this, Bool.and_false]
    rfl
  | a :: b :: c :: d :: e :: r =>
    simp only [List.cons_append, birdLine]
    by_cases hc : (reDigit a && reDigit b && reDigit c && reDigit d && (e == 32 || e == 45)) = true
    · rw [if_pos hc]
      simp only [List.take_succ_cons, List.take_zero] at h3 h4
      rw [if_neg h3, if_neg h4]
      simp only [Bool.and_eq_true, Bool.or_eq_true, beq_iff_eq, reDigit_iff] at hc
      obtain ⟨⟨⟨⟨ha, hb⟩, hc⟩, hd⟩, he⟩ := hc
      refine ⟨r, Or.inl ⟨[a, b, c, d], e, rfl, ?_, he, rfl⟩, rfl⟩
      intro x hx
      simp only [List.mem_cons, List.not_mem_nil, or_false] at hx
      rcases hx with rfl | rfl | rfl | rfl
      · exact ha
      · exact hb
      · exact hc
      · exact hd
    · rw [if_neg hc]
      refine ⟨_, Or.inr ⟨fun code x s' hl hx hy he => hc ?_, rfl⟩, rfl⟩
      match code, hl with
      | [a', b', c', d'], _ =>
        simp only [List.cons_append, List.nil_append, List.cons.injEq] at he
        obtain ⟨rfl, rfl, rfl, rfl, rfl, -⟩ := he
        have ha := reDigit_iff.mpr (hx a (by simp))
        have hb := reDigit_iff.mpr (hx b (by simp))
        have hc := reDigit_iff.mpr (hx c (by simp))
        have hd := reDigit_iff.mpr (hx d (by simp))
        rw [ha, hb, hc, hd]
        rcases hy with rfl | rfl <;> rfl

theorem content_unique {t s s' : Bytes} (h : BirdText t s) (h' : BirdText t s') : s = s' := by
  rcases h with ⟨code, c, h1, h2, h3, h4⟩ | ⟨h1, rfl⟩
  · rcases h' with ⟨code', c', h1', h2', h3', h4'⟩ | ⟨h1', -⟩
    · rw [h4] at h4'
      have := List.append_inj h4' (by rw [h1, h1'])
      exact (List.cons.inj this.2).2
    · exact absurd h4 (h1' code c s h1 h2 h3)
  · rcases h' with ⟨code', c', h1', h2', h3', h4'⟩ | ⟨-, rfl⟩
    · exact absurd h4' (h1 code' c' s' h1' h2' h3')
    · rfl

theorem plain_passed {t : Bytes} (h : PlainLine t) : PassedLine t := by
  obtain ⟨s, -, hs⟩ := birdLine_content h
  exact ⟨h.1, h.2.1, by rw [hs]; exact fun e => by cases e⟩

theorem yield_plain {t s : Bytes} (h : PlainLine t) (hs : BirdText t s) : yieldOf t = [s ++ [10]] := by
  obtain ⟨s', hs', e⟩ := birdLine_content h
  unfold yieldOf
  rw [e, content_unique hs hs']

/-- The lines of a reply, whatever the pieces it arrives in -/
theorem birdRead_reply {chunks lines : List Bytes} (h : BirdReply chunks lines) : birdRead [] chunks = (lines.flatMap yieldOf, true) := by
  obtain ⟨hp, greeting, bye, more, hg, hb, e⟩ := h
  have e1 : ascii "0001 " = [48, 48, 48, 49, 32] := by decide
  have e0 : ascii "0000 " = [48, 48, 48, 48, 32] := by decide
  rw [e1, e0] at e
  have hstop : birdLine (([48, 48, 48, 48, 32] ++ bye) ++ [10]) = .stop := rfl
  have hskip : birdLine (([48, 48, 48, 49, 32] ++ greeting) ++ [10]) = .skip := rfl
  have hno : ∀ {u v : Bytes}, 10 ∉ u → 10 ∉ v → (10 : Byte) ∉ u ++ v := fun h1 h2 hm => by
    rcases List.mem_append.mp hm with h | h
    · exact h1 h
    · exact h2 h
  have hgr : PassedLine ([48, 48, 48, 49, 32] ++ greeting) :=
    ⟨by simp, hno (by decide) hg, by rw [hskip]; exact fun e => by cases e⟩
  have := birdRead_spec (last := [48, 48, 48, 48, 32] ++ bye) (more := more) ⟨by simp, hno (by decide) hb⟩ hstop
    chunks (([48, 48, 48, 49, 32] ++ greeting) :: lines) [] (fun t ht => by
      rcases List.mem_cons.mp ht with rfl | ht
      · exact hgr
      · exact plain_passed (hp t ht)) (by simp) (by
      rw [List.nil_append, e]
      simp)
  rw [this]
  have hy : yieldOf ([48, 48, 48, 49, 32] ++ greeting) = [] := by unfold yieldOf; rw [hskip]
  rw [List.flatMap_cons, hy, List.nil_append]

/-! ## The table -/

/-- One announcement -/
def putSeen (now : Nat) (t : AnnounceTable) (x : Network × Nat) : AnnounceTable := putOver t x.1 (x.2, now) fun _ => (x.2, now)

theorem announce_ok {e : AnnounceEnv} {t : AnnounceTable} {name d : Bytes} {n : Network} {a : Nat} (hn : NamesNet name n) (hd : Digits a d)
    (ha : a < 2 ^ 63) : announce e t name d = some (putSeen e.now t (n, a)) := by
  unfold announce sqlBigint
  rw [ipNetwork_iff.mpr hn, digitsOf_iff.mpr hd]
  simp only [Option.bind_some]
  rw [if_pos ha]
  rfl

theorem yield_route {name info : Bytes} {origin : Option Bytes} {mark : Byte} :
    yieldOf (RouteLine.route name info origin mark).text = [(RouteLine.route name info origin mark).text ++ [10]] := by
  unfold yieldOf
  rw [route_text]
  have hb : ∀ r : Bytes, birdLine (32 :: r) = .line (32 :: r) := by
    intro r
    unfold birdLine
    split
    · rename_i a b c d e r' h
      cases h
      rfl
    · rfl
  rw [hb]

theorem route_plain {name info : Bytes} {origin : Option Bytes} {mark : Byte} (h : (RouteLine.route name info origin mark).Ok) :
    PlainLine (RouteLine.route name info origin mark).text := by
  obtain ⟨⟨hn1, hn2⟩, hi, hd, hm⟩ := h
  have h1 : ∃ r, (RouteLine.route name info origin mark).text = 32 :: r := ⟨_, rfl⟩
  refine ⟨?_, ?_, ?_, ?_⟩
  · obtain ⟨r, h⟩ := h1; rw [h]; exact List.cons_ne_nil _ _
  · have e1 : ascii "[" = [91] := by decide
    have e2 : ascii "]" = [93] := by decide
    have e3 : ascii "AS" = [65, 83] := by decide
    unfold RouteLine.text
    rw [e1, e2, e3]
    have hname : (10 : Byte) ∉ name := fun h => hn2 _ h (by decide)
    cases origin with
    | none =>
      simp only [List.mem_append, List.mem_cons, List.not_mem_nil, or_false, not_or]
      exact ⟨⟨⟨⟨⟨⟨by decide, hname⟩, by decide⟩, hi.2.1⟩, by decide⟩, fun e => hm e.symm⟩, by decide⟩
    | some d =>
      have hd10 : (10 : Byte) ∉ d := number_not (number_iff.mp (hd d rfl)).2 (by decide)
      simp only [List.mem_append, List.mem_cons, List.not_mem_nil, or_false, not_or]
      exact ⟨⟨⟨⟨⟨⟨⟨by decide, hname⟩, by decide⟩, hi.2.1⟩, by decide⟩, ⟨by decide, by decide⟩, hd10⟩, fun e => hm e.symm⟩, by decide⟩
  · obtain ⟨r, h⟩ := h1; rw [h]
    intro e
    have := congrArg List.head? e
    exact absurd (Option.some.inj this) (by decide : ¬ (32 : Byte) = 48)
  · obtain ⟨r, h⟩ := h1; rw [h]
    intro e
    have := congrArg List.head? e
    exact absurd (Option.some.inj this) (by decide : ¬ (32 : Byte) = 48)

theorem routeLine_plain {x : RouteLine} (h : x.Ok) : PlainLine x.text := by
  cases x with
  | route => exact route_plain h
  | other => exact h.1

/-- The networks of the routes without an AS -/
def aggregatedIn : List RouteLine → List Bytes
  | [] => []
  | .route name _ none _ :: ls => name :: aggregatedIn ls
  | _ :: ls => aggregatedIn ls

theorem importRoutes_exact {e : AnnounceEnv} {ls : List RouteLine} {evs : List (Network × Nat)} (h : Originates ls evs) :
    (∀ x ∈ ls, x.Ok) → ∀ (t : AnnounceTable) (agg : List Bytes),
    importRoutes e t agg ((ls.map RouteLine.text).flatMap yieldOf) = some (evs.foldl (putSeen e.now) t, agg ++ aggregatedIn ls) := by
  induction h with
  | nil =>
    intro _ t agg
    simp [importRoutes, aggregatedIn]
  | @other text ls evs h ih =>
    intro hok t agg
    have ho := hok _ List.mem_cons_self
    obtain ⟨s, hs, -⟩ := birdLine_content ho.1
    simp only [List.map_cons, List.flatMap_cons]
    have hy : yieldOf (RouteLine.other text).text = [s ++ [10]] := yield_plain ho.1 hs
    have h91 : (91 : Byte) ∉ s ++ [10] := by
      intro hm
      rcases List.mem_append.mp hm with hm | hm
      · refine ho.2 ?_
        rcases hs with ⟨code, c, -, -, -, rfl⟩ | ⟨-, rfl⟩
        · exact List.mem_append_right _ (List.mem_cons_of_mem _ hm)
        · exact hm
      · exact absurd hm (by decide)
    rw [hy, List.singleton_append]
    unfold importRoutes
    rw [routeRe_none h91]
    exact ih (fun x hx => hok x (List.mem_cons_of_mem _ hx)) t agg
  | @aggregated name info mark ls evs h ih =>
    intro hok t agg
    simp only [List.map_cons, List.flatMap_cons]
    rw [yield_route, List.singleton_append]
    unfold importRoutes
    rw [routeRe_route (hok _ List.mem_cons_self)]
    simp only
    rw [ih (fun x hx => hok x (List.mem_cons_of_mem _ hx)) t]
    simp [aggregatedIn]
  | @route name info d mark n a ls evs hn hd ha h ih =>
    intro hok t agg
    simp only [List.map_cons, List.flatMap_cons]
    rw [yield_route, List.singleton_append]
    unfold importRoutes
    rw [routeRe_route (hok _ List.mem_cons_self)]
    have hne := (number_iff.mp ⟨a, hd⟩).1
    cases d with
    | nil => exact absurd rfl hne
    | cons c d =>
      simp only
      rw [announce_ok hn hd ha]
      simp only
      rw [ih (fun x hx => hok x (List.mem_cons_of_mem _ hx))]
      simp [aggregatedIn]

theorem firstPath_iff {lines : List Bytes} (hp : ∀ t ∈ lines, PlainLine t) {d : Bytes} :
    (lines.flatMap yieldOf).findSome? pathRe = some d ↔ FirstPath lines d := by
  induction lines with
  | nil =>
    constructor
    · intro h; cases h
    · rintro ⟨pre, t, post, s, h, -⟩
      cases pre <;> cases h
  | cons t lines ih =>
    obtain ⟨s, hs, -⟩ := birdLine_content (hp t List.mem_cons_self)
    rw [List.flatMap_cons, yield_plain (hp t List.mem_cons_self) hs, List.singleton_append, List.findSome?_cons]
    cases e : pathRe (s ++ [10]) with
    | some d' =>
      have hd' := pathRe_iff.mp e
      simp only [Option.some.injEq]
      constructor
      · rintro rfl
        exact ⟨[], t, lines, s, rfl, hs, hd', fun u hu => by cases hu⟩
      · rintro ⟨pre, u, post, v, h1, h2, h3, h4⟩
        cases pre with
        | nil =>
          simp only [List.nil_append, List.cons.injEq] at h1
          obtain ⟨rfl, -⟩ := h1
          rw [content_unique h2 hs] at h3
          exact pathLine_unique hd' h3
        | cons x pre =>
          simp only [List.cons_append, List.cons.injEq] at h1
          obtain ⟨rfl, -⟩ := h1
          exact absurd hd' (h4 t List.mem_cons_self s d' hs)
    | none =>
      have hno : ∀ d', ¬ PathLine s d' := fun d' h => by rw [pathRe_iff.mpr h] at e; cases e
      simp only
      rw [ih fun x hx => hp x (List.mem_cons_of_mem _ hx)]
      constructor
      · rintro ⟨pre, u, post, v, rfl, h2, h3, h4⟩
        refine ⟨t :: pre, u, post, v, rfl, h2, h3, fun x hx y d' hc => ?_⟩
        rcases List.mem_cons.mp hx with rfl | hx
        · rw [content_unique hc hs]; exact hno d'
        · exact h4 x hx y d' hc
      · rintro ⟨pre, u, post, v, h1, h2, h3, h4⟩
        cases pre with
        | nil =>
          simp only [List.nil_append, List.cons.injEq] at h1
          obtain ⟨rfl, -⟩ := h1
          rw [content_unique h2 hs] at h3
          exact absurd h3 (hno d)
        | cons x pre =>
          simp only [List.cons_append, List.cons.injEq] at h1
          exact ⟨pre, u, post, v, h1.2, h2, h3, fun x hx => h4 x (List.mem_cons_of_mem _ hx)⟩

theorem showRouteAll_eq (name : Bytes) : showRouteAll name = ascii "show route " ++ name ++ ascii " all" := by
  have e1 : ascii "show route " = strShowRoute ++ [32] := by decide
  have e2 : ascii " all" = [32, 97, 108, 108] := by decide
  rw [e1, e2]
  rfl

theorem importAggregated_exact {e : AnnounceEnv} {ls : List RouteLine} {evs : List (Network × Nat)} (h : Aggregates e.bird ls evs) :
    ∀ t : AnnounceTable, importAggregated e t (aggregatedIn ls) = .done (evs.foldl (putSeen e.now) t) := by
  induction h with
  | nil => intro t; rfl
  | other h ih => intro t; exact ih t
  | route h ih => intro t; exact ih t
  | found hr hf hn hd ha h ih =>
    intro t
    unfold aggregatedIn importAggregated
    rw [showRouteAll_eq, birdRead_reply hr]
    simp only
    rw [(firstPath_iff hr.1).mpr hf]
    simp only
    rw [announce_ok hn hd ha]
    exact ih _
  | @missing name info mark lines ls evs hr hf h ih =>
    intro t
    unfold aggregatedIn importAggregated
    rw [showRouteAll_eq, birdRead_reply hr]
    simp only
    have : (lines.flatMap yieldOf).findSome? pathRe = none := by
      cases e : (lines.flatMap yieldOf).findSome? pathRe with
      | none => rfl
      | some d => exact absurd ((firstPath_iff hr.1).mp e) (hf d)
    rw [this]
    simp only [if_true]
    exact ih t

theorem announce_refused {e : AnnounceEnv} {t : AnnounceTable} {name d : Bytes} (h : Unusable name d) : announce e t name d = none := by
  unfold announce
  cases hn : ipNetwork name with
  | none => rfl
  | some n =>
    have hk : sqlBigint d = none := by
      unfold sqlBigint
      cases hd : digitsOf d with
      | none => rfl
      | some k =>
        rcases h with h | h
        · exact absurd (ipNetwork_iff.mp hn) (h n)
        · rw [Option.bind_some, if_neg (by have := h k (digitsOf_iff.mp hd); omega)]
    simp only
    rw [hk]

/-- Whatever becomes of the routes with an AS, those without are collected. -/
theorem importRoutes_some {e : AnnounceEnv} {ls : List RouteLine} : (∀ x ∈ ls, x.Ok) → ∀ (t : AnnounceTable) (agg : List Bytes),
    (importRoutes e t agg ((ls.map RouteLine.text).flatMap yieldOf) = none ∨
      ((∀ name info d mark, RouteLine.route name info (some d) mark ∈ ls → ¬ Unusable name d) ∧
        ∃ t', importRoutes e t agg ((ls.map RouteLine.text).flatMap yieldOf) = some (t', agg ++ aggregatedIn ls))) := by
  induction ls with
  | nil =>
    intro _ t agg
    right
    exact ⟨fun _ _ _ _ h => (by cases h), t, by simp [importRoutes, aggregatedIn]⟩
  | cons x ls ih =>
    intro hok t agg
    have hok' : ∀ x ∈ ls, x.Ok := fun x hx => hok x (List.mem_cons_of_mem _ hx)
    cases x with
    | other text =>
      have ho := hok _ List.mem_cons_self
      obtain ⟨s, hs, -⟩ := birdLine_content ho.1
      simp only [List.map_cons, List.flatMap_cons]
      have hy : yieldOf (RouteLine.other text).text = [s ++ [10]] := yield_plain ho.1 hs
      have h91 : (91 : Byte) ∉ s ++ [10] := by
        intro hm
        rcases List.mem_append.mp hm with hm | hm
        · refine ho.2 ?_
          rcases hs with ⟨code, c, -, -, -, rfl⟩ | ⟨-, rfl⟩
          · exact List.mem_append_right _ (List.mem_cons_of_mem _ hm)
          · exact hm
        · exact absurd hm (by decide)
      rw [hy, List.singleton_append]
      unfold importRoutes
      rw [routeRe_none h91]
      rcases ih hok' t agg with h | ⟨h1, h2⟩
      · exact .inl h
      · right
        refine ⟨fun name info d mark h => ?_, h2⟩
        rcases List.mem_cons.mp h with h | h
        · cases h
        · exact h1 name info d mark h
    | route name info origin mark =>
      simp only [List.map_cons, List.flatMap_cons]
      rw [yield_route, List.singleton_append]
      unfold importRoutes
      rw [routeRe_route (hok _ List.mem_cons_self)]
      cases origin with
      | none =>
        simp only
        rcases ih hok' t (agg ++ [name]) with h | ⟨h1, t', h2⟩
        · exact .inl h
        · right
          refine ⟨fun name info d mark h => ?_, t', ?_⟩
          · rcases List.mem_cons.mp h with h | h
            · cases h
            · exact h1 name info d mark h
          · rw [h2]
            simp [aggregatedIn]
      | some d =>
        have ho := hok _ List.mem_cons_self
        obtain ⟨a, hd⟩ := ho.2.2.1 d rfl
        have hne := (number_iff.mp ⟨a, hd⟩).1
        cases d with
        | nil => exact absurd rfl hne
        | cons c d =>
          simp only
          cases ha : announce e t name (c :: d) with
          | none => exact .inl rfl
          | some t1 =>
            simp only
            rcases ih hok' t1 agg with h | ⟨h1, t', h2⟩
            · exact .inl h
            · right
              refine ⟨fun name' info' d' mark' h => ?_, t', ?_⟩
              · rcases List.mem_cons.mp h with h | h
                · cases h
                  intro hu
                  rw [announce_refused hu] at ha
                  cases ha
                · exact h1 name' info' d' mark' h
              · rw [h2]
                simp [aggregatedIn]

theorem importAggregated_refused {e : AnnounceEnv} {ls : List RouteLine}
    (h : ∀ name info mark, RouteLine.route name info none mark ∈ ls →
      ∃ lines, BirdReply (e.bird (ascii "show route " ++ name ++ ascii " all")) lines)
    {name info : Bytes} {mark : Byte} {lines : List Bytes} {d : Bytes} (hm : RouteLine.route name info none mark ∈ ls)
    (hr : BirdReply (e.bird (ascii "show route " ++ name ++ ascii " all")) lines) (hf : FirstPath lines d) (hu : Unusable name d)
    (t : AnnounceTable) : importAggregated e t (aggregatedIn ls) = .failed := by
  induction ls generalizing t with
  | nil => cases hm
  | cons x ls ih =>
    have h' : ∀ name info mark, RouteLine.route name info none mark ∈ ls →
      ∃ lines, BirdReply (e.bird (ascii "show route " ++ name ++ ascii " all")) lines := fun a b c hx => h a b c (List.mem_cons_of_mem _ hx)
    cases x with
    | other text =>
      rcases List.mem_cons.mp hm with hm | hm
      · cases hm
      · exact ih h' hm t
    | route name1 info1 origin mark1 =>
      cases origin with
      | some d1 =>
        rcases List.mem_cons.mp hm with hm | hm
        · cases hm
        · exact ih h' hm t
      | none =>
        unfold aggregatedIn importAggregated
        rcases List.mem_cons.mp hm with hm | hm
        · cases hm
          rw [showRouteAll_eq, birdRead_reply hr]
          simp only
          rw [(firstPath_iff hr.1).mpr hf]
          simp only
          rw [announce_refused hu]
        · obtain ⟨lines1, hr1⟩ := h name1 info1 mark1 List.mem_cons_self
          rw [showRouteAll_eq, birdRead_reply hr1]
          simp only
          cases (lines1.flatMap yieldOf).findSome? pathRe with
          | none =>
            simp only [if_true]
            exact ih h' hm t
          | some asn =>
            simp only
            cases announce e t name1 asn with
            | none => rfl
            | some t1 => exact ih h' hm t1

theorem mem_putSeen {now : Nat} {t : AnnounceTable} {x : Network × Nat} {n : Network} {a s : Nat} :
    (n, a, s) ∈ putSeen now t x ↔ (x = (n, a) ∧ s = now) ∨ (x.1 ≠ n ∧ (n, a, s) ∈ t) := by
  obtain ⟨m, b⟩ := x
  unfold putSeen
  rw [mem_putOver]
  constructor
  · rintro (⟨rfl, ⟨old, -, h⟩ | ⟨-, h⟩⟩ | ⟨h1, h2⟩)
    · cases h; exact Or.inl ⟨rfl, rfl⟩
    · cases h; exact Or.inl ⟨rfl, rfl⟩
    · exact Or.inr ⟨fun h => h1 h.symm, h2⟩
  · rintro (⟨h1, rfl⟩ | ⟨h1, h2⟩)
    · cases h1
      refine Or.inl ⟨rfl, ?_⟩
      by_cases hm : n ∈ t.map (·.1)
      · obtain ⟨⟨n', old⟩, ho, rfl⟩ := List.mem_map.mp hm
        exact Or.inl ⟨old, ho, rfl⟩
      · exact Or.inr ⟨hm, rfl⟩
    · exact Or.inr ⟨fun h => h1 h.symm, h2⟩

theorem lastWord_cons {x : Network × Nat} {evs : List (Network × Nat)} {n : Network} {a : Nat} :
    LastWord (x :: evs) n a ↔ LastWord evs n a ∨ (x = (n, a) ∧ ∀ y ∈ evs, y.1 ≠ n) := by
  constructor
  · rintro ⟨pre, post, h1, h2⟩
    cases pre with
    | nil =>
      simp only [List.nil_append, List.cons.injEq] at h1
      obtain ⟨rfl, rfl⟩ := h1
      exact Or.inr ⟨rfl, h2⟩
    | cons y pre =>
      simp only [List.cons_append, List.cons.injEq] at h1
      exact Or.inl ⟨pre, post, h1.2, h2⟩
  · rintro (⟨pre, post, rfl, h2⟩ | ⟨rfl, h⟩)
    · exact ⟨x :: pre, post, rfl, h2⟩
    · exact ⟨[], evs, rfl, h⟩

theorem lastWord_exists {evs : List (Network × Nat)} {n : Network} : (∀ x ∈ evs, x.1 ≠ n) ∨ ∃ a, LastWord evs n a := by
  induction evs with
  | nil => exact Or.inl fun x hx => by cases hx
  | cons x evs ih =>
    rcases ih with ih | ⟨a, ih⟩
    · by_cases hx : x.1 = n
      · exact Or.inr ⟨x.2, lastWord_cons.mpr (Or.inr ⟨by rw [← hx], ih⟩)⟩
      · refine Or.inl fun y hy => ?_
        rcases List.mem_cons.mp hy with rfl | hy
        · exact hx
        · exact ih y hy
    · exact Or.inr ⟨a, lastWord_cons.mpr (Or.inl ih)⟩

theorem mem_putAll {now : Nat} {n : Network} {a s : Nat} : ∀ {evs : List (Network × Nat)} {t : AnnounceTable},
    (n, a, s) ∈ evs.foldl (putSeen now) t ↔ (LastWord evs n a ∧ s = now) ∨ ((∀ x ∈ evs, x.1 ≠ n) ∧ (n, a, s) ∈ t)
  | [], t => by
    simp only [List.foldl_nil]
    constructor
    · intro h; exact Or.inr ⟨fun x hx => (by cases hx), h⟩
    · rintro (⟨⟨pre, post, h, -⟩, -⟩ | ⟨-, h⟩)
      · cases pre <;> cases h
      · exact h
  | x :: evs, t => by
    simp only [List.foldl_cons]
    rw [mem_putAll, mem_putSeen, lastWord_cons]
    constructor
    · rintro (⟨h1, h2⟩ | ⟨h1, ⟨h2, h3⟩ | ⟨h2, h3⟩⟩)
      · exact Or.inl ⟨Or.inl h1, h2⟩
      · exact Or.inl ⟨Or.inr ⟨h2, h1⟩, h3⟩
      · refine Or.inr ⟨fun y hy => ?_, h3⟩
        rcases List.mem_cons.mp hy with rfl | hy
        · exact h2
        · exact h1 y hy
    · rintro (⟨h1 | ⟨h1, h2⟩, h3⟩ | ⟨h1, h2⟩)
      · exact Or.inl ⟨h1, h3⟩
      · exact Or.inr ⟨h2, Or.inl ⟨h1, h3⟩⟩
      · exact Or.inr ⟨fun y hy => h1 y (List.mem_cons_of_mem _ hy), Or.inr ⟨h1 x List.mem_cons_self, h2⟩⟩

theorem keys_putAll {now : Nat} : ∀ {evs : List (Network × Nat)} {t : AnnounceTable}, (t.map (·.1)).Nodup →
    ((evs.foldl (putSeen now) t).map (·.1)).Nodup
  | [], _, h => h
  | x :: evs, t, h => keys_putAll (evs := evs) (t := putSeen now t x) (keys_putOver h)

theorem originates_block {ls : List RouteLine} {evs : List (Network × Nat)} (h : Originates ls evs) : ∀ x ∈ evs, ∃ name, NamesNet name x.1 := by
  induction h with
  | nil => intro x hx; cases hx
  | other _ ih => exact ih
  | aggregated _ ih => exact ih
  | route hn _ _ _ ih =>
    intro x hx
    rcases List.mem_cons.mp hx with rfl | hx
    · exact ⟨_, hn⟩
    · exact ih x hx

theorem aggregates_block {bird : Bytes → List Bytes} {ls : List RouteLine} {evs : List (Network × Nat)} (h : Aggregates bird ls evs) :
    ∀ x ∈ evs, ∃ name, NamesNet name x.1 := by
  induction h with
  | nil => intro x hx; cases hx
  | other _ ih => exact ih
  | route _ ih => exact ih
  | missing _ _ _ ih => exact ih
  | found _ _ hn _ _ _ ih =>
    intro x hx
    rcases List.mem_cons.mp hx with rfl | hx
    · exact ⟨_, hn⟩
    · exact ih x hx

theorem names_block {name : Bytes} {n : Network} (h : NamesNet name n) : Block n := by
  have key : ∀ {a : Addr} {p : Nat}, newNetwork a p = .ok n → Block n := fun {a p} h => by
    by_cases hp : famStart a + p ≤ 128
    · obtain ⟨m, hm, hb, -⟩ := newNetwork_ok a p hp
      rw [hm] at h
      cases h
      exact hb
    · rw [newNetwork_err a p hp] at h; cases h
  rcases h with ⟨_, _, _, _, _, _, _, _, _, _, h⟩ | ⟨_, _, _, _, h⟩
  · exact key h
  · exact key h

/-! ## What is kept -/

theorem unicast_net : ipNetwork (ascii "2000::/3") = some (inet6 0x2000 3) := by decide +kernel

theorem unwanted_nets : neverWanted.map (fun s => ipNetwork (ascii s)) =
    [inet4 0 0 0 0 8, inet4 127 0 0 0 8, inet4 10 0 0 0 8, inet4 172 16 0 0 12, inet4 192 168 0 0 16, inet4 192 0 0 0 24,
    inet4 192 0 2 0 24, inet4 198 18 0 0 15, inet4 198 51 100 0 24, inet4 203 0 113 0 24, inet4 100 64 0 0 10,
    inet4 169 254 0 0 16, inet4 192 88 99 0 24, inet6 0x2002 16, inet4 224 0 0 0 4, inet4 240 0 0 0 4].map some := by decide +kernel

theorem wanted_iff {n : Network} : (∀ s ∈ neverWanted, ∀ m, NamesNet (ascii s) m → ¬ Inside n m) ↔
    (∀ b ∈ purged4, ¬ Inside n b) ∧ ¬ Inside n (inet6 0x2002 16) := by
  have h1 : (∀ s ∈ neverWanted, ∀ m, NamesNet (ascii s) m → ¬ Inside n m) ↔
      ∀ o ∈ neverWanted.map (fun s => ipNetwork (ascii s)), ∀ m, o = some m → ¬ Inside n m := by
    rw [List.forall_mem_map]
    refine forall_congr' fun s => forall_congr' fun _ => forall_congr' fun m => ?_
    rw [ipNetwork_iff]
  rw [h1, unwanted_nets, List.forall_mem_map]
  unfold purged4
  simp only [Option.some.injEq, forall_eq', List.mem_cons, List.not_mem_nil, or_false, forall_eq_or_imp, forall_eq]
  constructor
  · rintro ⟨a1, a2, a3, a4, a5, a6, a7, a8, a9, b1, b2, b3, b4, b5, b6, b7⟩
    exact ⟨⟨a1, a2, a3, a4, a5, a6, a7, a8, a9, b1, b2, b3, b4, b6, b7⟩, b5⟩
  · rintro ⟨⟨a1, a2, a3, a4, a5, a6, a7, a8, a9, b1, b2, b3, b4, b6, b7⟩, b5⟩
    exact ⟨a1, a2, a3, a4, a5, a6, a7, a8, a9, b1, b2, b3, b4, b5, b6, b7⟩

theorem purged_blocks : (∀ b ∈ purged4, Block b ∧ b.family = .inet) ∧ Block (inet6 0x2002 16) ∧ Block (inet6 0x2000 3) := by
  decide +kernel

theorem sqlContains_inside {n b : Network} (hn : Block n) (hb : Block b) (hf : Inside n b → b.family = n.family) :
    sqlContains b n = true ↔ Inside n b := by
  unfold sqlContains
  rw [Bool.and_eq_true, decide_eq_true_iff, is_subnet_iff hb hn]
  exact ⟨fun h => h.2, fun h => ⟨hf h, h⟩⟩

theorem inside_v4 {n b : Network} (hn : Block n) (hb : Block b) (hf : b.family = .inet) (h : Inside n b) : n.family = .inet :=
  (block_v4_iff hn).mpr (((block_v4_iff hb).mp hf).trans ((inside_iff_path hn hb).mp h))

theorem inside_v6 {n b : Network} (hn : Block n) (hv : 0x10000 * 2 ^ 32 ≤ value b.first) (h : Inside n b) : n.family = .inet6 := by
  have hc := (h n.first ⟨Nat.le_refl _, by rw [hn.last_eq]; omega⟩).1
  cases e : n.family with
  | inet6 => rfl
  | inet =>
    exfalso
    have h4 := hn.fam.mp e
    unfold IsV4 at h4
    omega

theorem v6_values : 0x10000 * 2 ^ 32 ≤ value (inet6 0x2000 3).first ∧ 0x10000 * 2 ^ 32 ≤ value (inet6 0x2002 16).first ∧
    (inet6 0x2000 3).family = .inet6 ∧ (inet6 0x2002 16).family = .inet6 := by decide +kernel

theorem keepRow_iff {now : Nat} {n : Network} {a s : Nat} (hn : Block n) : keepRow now (n, a, s) = true ↔ RouteKept now n a s := by
  obtain ⟨hp4, hb2, hb0⟩ := purged_blocks
  obtain ⟨v0, v2, f0, f2⟩ := v6_values
  have hfs := famStart_first hn
  have h4 : (purged4.any fun b => decide (n.family = .inet) && sqlContains b n) = true ↔ ∃ b ∈ purged4, Inside n b := by
    rw [List.any_eq_true]
    refine exists_congr fun b => ?_
    constructor
    · rintro ⟨hb, h⟩
      rw [Bool.and_eq_true] at h
      have hbb := hp4 b hb
      exact ⟨hb, (sqlContains_inside hn hbb.1 fun h => by rw [hbb.2, inside_v4 hn hbb.1 hbb.2 h]).mp h.2⟩
    · rintro ⟨hb, h⟩
      have hbb := hp4 b hb
      refine ⟨hb, ?_⟩
      rw [Bool.and_eq_true, decide_eq_true_iff]
      exact ⟨inside_v4 hn hbb.1 hbb.2 h, (sqlContains_inside hn hbb.1 fun h => by rw [hbb.2, inside_v4 hn hbb.1 hbb.2 h]).mpr h⟩
  have h2 : (decide (n.family = .inet6) && sqlContains (inet6 0x2002 16) n) = true ↔ Inside n (inet6 0x2002 16) := by
    rw [Bool.and_eq_true, decide_eq_true_iff, sqlContains_inside hn hb2 fun h => by rw [f2, inside_v6 hn v2 h]]
    exact ⟨fun h => h.2, fun h => ⟨inside_v6 hn v2 h, h⟩⟩
  have h0 : sqlContains (inet6 0x2000 3) n = true ↔ Inside n (inet6 0x2000 3) :=
    sqlContains_inside hn hb0 fun h => by rw [f0, inside_v6 hn v0 h]
  have hu : (∃ m, NamesNet (ascii "2000::/3") m ∧ Inside n m) ↔ Inside n (inet6 0x2000 3) := by
    constructor
    · rintro ⟨m, hm, h⟩
      have := ipNetwork_iff.mpr hm
      rw [unicast_net] at this
      cases this
      exact h
    · intro h
      exact ⟨_, ipNetwork_iff.mp unicast_net, h⟩
  have hkept : RouteKept now n a s ↔ netPrefix n ≠ 0 ∧ (n.family = .inet6 → Inside n (inet6 0x2000 3)) ∧
      ((¬ ∃ b ∈ purged4, Inside n b) ∧ ¬ Inside n (inet6 0x2002 16)) ∧
      ((n.family = .inet → netPrefix n ≤ 24) ∧ (n.family = .inet6 → netPrefix n ≤ 48)) ∧ checkAsn a = true ∧ now < s + 14 * 86400 := by
    rw [checkAsn_iff]
    constructor
    · intro h
      refine ⟨h.proper, fun e => hu.mp (h.unicast e), ?_, h.large, h.publicAs, h.recent⟩
      have := wanted_iff.mp h.wanted
      exact ⟨fun ⟨b, hb, hi⟩ => this.1 b hb hi, this.2⟩
    · rintro ⟨h1, h2, ⟨h3, h4⟩, h5, h6, h7⟩
      exact ⟨h1, fun e => hu.mpr (h2 e), wanted_iff.mpr ⟨fun b hb hi => h3 ⟨b, hb, hi⟩, h4⟩, h5, h6, h7⟩
  have hnot : ∀ b : Bool, (!b) = true ↔ ¬ b = true := fun b => by cases b <;> simp
  rw [hkept, ← h4, ← h2, ← h0]
  unfold keepRow
  simp only [Bool.and_eq_true, hnot, decide_eq_true_iff, beq_iff_eq]
  have hpre : (¬ (n.family = .inet6 ∧ n.pfx = 0) ∧ ¬ (n.family = .inet ∧ n.pfx = 96)) ↔ netPrefix n ≠ 0 := by
    have h96 := block_v4_pfx hn
    unfold netPrefix
    cases e : n.family with
    | inet => have := h96 e; simp; omega
    | inet6 => simp
  rw [← hpre]
  constructor
  · rintro ⟨⟨⟨⟨⟨⟨⟨⟨a1, a2⟩, a3⟩, a4⟩, a5⟩, a6⟩, a7⟩, a8⟩, a9⟩
    refine ⟨⟨a1, a2⟩, fun e => Classical.byContradiction fun h => a3 ⟨e, h⟩, ⟨a4, a5⟩, ⟨fun e => ?_, fun e => ?_⟩, a8, by omega⟩
    · exact Classical.byContradiction fun h => a7 ⟨e, by omega⟩
    · exact Classical.byContradiction fun h => a6 ⟨e, by omega⟩
  · rintro ⟨⟨a1, a2⟩, a3, ⟨a4, a5⟩, ⟨a7, a6⟩, a8, a9⟩
    refine ⟨⟨⟨⟨⟨⟨⟨⟨a1, a2⟩, fun h => h.2 (a3 h.1)⟩, a4⟩, a5⟩, fun h => ?_⟩, fun h => ?_⟩, a8⟩, by omega⟩
    · have := a6 h.1; omega
    · have := a7 h.1; omega

theorem importRoutes_blank {e e' : AnnounceEnv} (hnow : e'.now = e.now) (ls : List RouteLine) (hok : ∀ x ∈ ls, x.blank.Ok) :
    ∀ (t : AnnounceTable) (agg : List Bytes), importRoutes e t agg ((ls.map RouteLine.text).flatMap yieldOf) =
      importRoutes e' t agg ((ls.map fun x => x.blank.text).flatMap yieldOf) := by
  have han : ∀ t net asn, announce e t net asn = announce e' t net asn := fun t net asn => by unfold announce; rw [hnow]
  induction ls with
  | nil => intro t agg; rfl
  | cons x ls ih =>
    intro t agg
    have ih := ih fun x hx => hok x (List.mem_cons_of_mem _ hx)
    have ho := hok x List.mem_cons_self
    simp only [List.map_cons, List.flatMap_cons]
    cases x with
    | other text =>
      obtain ⟨s, hs, -⟩ := birdLine_content ho.1
      have hy : yieldOf (RouteLine.other text).text = [s ++ [10]] := yield_plain ho.1 hs
      have hy' : yieldOf (RouteLine.other text).blank.text = [s ++ [10]] := yield_plain ho.1 hs
      rw [hy, hy', List.singleton_append, List.singleton_append]
      unfold importRoutes
      simp only [han, ih]
    | route name info origin mark =>
      cases origin with
      | none =>
        have hb : (RouteLine.route name info none mark).blank = .route name info none mark := rfl
        rw [hb, yield_route, List.singleton_append, List.singleton_append]
        unfold importRoutes
        simp only [han, ih]
      | some d =>
        cases d with
        | nil =>
          have hb : (RouteLine.route name info (some []) mark).blank = .route name info none mark := rfl
          rw [hb] at ho ⊢
          rw [yield_route, yield_route, List.singleton_append, List.singleton_append]
          unfold importRoutes
          rw [routeRe_route ho, routeRe_digits ho.1.1 ho.1.2 ho.2.1 (fun d h => by cases h; simp) ho.2.2.2]
          simp only [ih]
        | cons c d =>
          have hb : (RouteLine.route name info (some (c :: d)) mark).blank = .route name info (some (c :: d)) mark := rfl
          rw [hb, yield_route, List.singleton_append, List.singleton_append]
          unfold importRoutes
          simp only [han, ih]

theorem importAggregated_same {e e' : AnnounceEnv} (hnow : e'.now = e.now) (hb : ∀ c, c ≠ strShowRoute → e'.bird c = e.bird c) (nets : List Bytes) :
    ∀ t, importAggregated e t nets = importAggregated e' t nets := by
  induction nets with
  | nil => intro t; rfl
  | cons net nets ih =>
    intro t
    have hne : showRouteAll net ≠ strShowRoute := by
      intro h
      have := congrArg List.length h
      unfold showRouteAll at this
      simp only [List.length_append, List.length_cons, List.length_nil] at this
      omega
    have han : ∀ t net asn, announce e t net asn = announce e' t net asn := fun t net asn => by unfold announce; rw [hnow]
    unfold importAggregated
    rw [hb _ hne]
    simp only [han, ih]

end Loc
