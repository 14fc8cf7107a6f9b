import Verif.Spec.Export
import Verif.Props.Flatten
/-
C50: `location export`.
-/
namespace Loc.Props
open Loc Loc.Spec

/-! ### The dictionary of outputs -/

theorem outWrite_eq (n : Network) (w : Outputs) (hn : (w.map (·.1)).Nodup) (k : Key) :
    outWrite n w k = w.map fun e => if e.1 = k then (e.1, e.2 ++ [n]) else e := by
  induction w with
  | nil => rfl
  | cons e w ih =>
    rw [List.map_cons, List.nodup_cons] at hn
    obtain ⟨k', l⟩ := e
    rw [outWrite, List.map_cons]
    split
    · rename_i h
      subst h
      congr 1
      conv => lhs; rw [← List.map_id w]
      apply List.map_congr_left
      intro e he
      rw [if_neg]
      · rfl
      · intro h
        exact hn.1 (List.mem_map.mpr ⟨e, he, h⟩)
    · rw [ih hn.2]

theorem keys_if (n : Network) (k : Key) (e : Key × List Network) : (if e.1 = k then (e.1, e.2 ++ [n]) else e).1 = e.1 := by
  split <;> rfl

theorem outWrite_keys (n : Network) (w : Outputs) (hn : (w.map (·.1)).Nodup) (k : Key) : (outWrite n w k).map (·.1) = w.map (·.1) := by
  rw [outWrite_eq n w hn, List.map_map]
  apply List.map_congr_left
  intro e _
  exact keys_if n k e

theorem outSet_keys (w : Outputs) (hn : (w.map (·.1)).Nodup) (he : ∀ e ∈ w, e.2 = []) (k : Key) :
    ((outSet w k).map (·.1)).Nodup ∧ (∀ e ∈ outSet w k, e.2 = []) ∧ ∀ k', k' ∈ (outSet w k).map (·.1) ↔ k' = k ∨ k' ∈ w.map (·.1) := by
  induction w with
  | nil => simp [outSet]
  | cons e w ih =>
    obtain ⟨k0, l⟩ := e
    rw [List.map_cons, List.nodup_cons] at hn
    obtain ⟨h1, h2, h3⟩ := ih hn.2 (fun e h => he e (by simp [h]))
    rw [outSet]
    split
    · rename_i h
      subst h
      refine ⟨?_, ?_, ?_⟩
      · rw [List.map_cons, List.nodup_cons]; exact hn
      · intro e h
        rcases List.mem_cons.mp h with rfl | h
        · rfl
        · exact he e (by simp [h])
      · intro k'
        simp only [List.map_cons, List.mem_cons]
        tauto
    · rename_i h
      refine ⟨?_, ?_, ?_⟩
      · rw [List.map_cons, List.nodup_cons, h3]
        refine ⟨?_, h1⟩
        rintro (h' | h')
        · exact h h'
        · exact hn.1 h'
      · intro e h'
        rcases List.mem_cons.mp h' with rfl | h'
        · exact he _ (by simp)
        · exact h2 e h'
      · intro k'
        simp only [List.map_cons, List.mem_cons]
        rw [h3]
        tauto

theorem foldl_outSet {α : Type} (f : α → Key) (l : List α) : ∀ w : Outputs, (w.map (·.1)).Nodup → (∀ e ∈ w, e.2 = []) →
    ((l.foldl (fun w a => outSet w (f a)) w).map (·.1)).Nodup ∧ (∀ e ∈ l.foldl (fun w a => outSet w (f a)) w, e.2 = []) ∧
      ∀ k, k ∈ (l.foldl (fun w a => outSet w (f a)) w).map (·.1) ↔ k ∈ l.map f ∨ k ∈ w.map (·.1) := by
  induction l with
  | nil => intro w h1 h2; exact ⟨h1, h2, by simp⟩
  | cons a l ih =>
    intro w h1 h2
    obtain ⟨g1, g2, g3⟩ := outSet_keys w h1 h2 (f a)
    obtain ⟨i1, i2, i3⟩ := ih _ g1 g2
    refine ⟨i1, i2, fun k => ?_⟩
    rw [List.foldl_cons, i3, g3, List.map_cons, List.mem_cons]
    tauto

theorem exportWriters_keys (countries : List CStr) (asns : List Nat) :
    ((exportWriters countries asns).map (·.1)).Nodup ∧ (∀ e ∈ exportWriters countries asns, e.2 = []) ∧
      ∀ k, k ∈ (exportWriters countries asns).map (·.1) ↔ Asked countries asns k := by
  obtain ⟨g1, g2, g3⟩ := foldl_outSet Key.country countries [] (by simp) (by simp)
  obtain ⟨i1, i2, i3⟩ := foldl_outSet Key.asn asns _ g1 g2
  refine ⟨i1, i2, fun k => ?_⟩
  unfold exportWriters
  rw [i3, g3]
  cases k with
  | country c => simp [Asked]
  | asn x => simp [Asked]

/-! ### What is written for one network -/

/-- How often a network is written to an output. -/
def hits (n : Network) (k : Key) : List Network :=
  (if k = .country (countryCode n) then [n] else []) ++ (if n.asn ≠ 0 ∧ k = .asn n.asn.toNat then [n] else []) ++
    exportFlags.flatMap fun e => if hasFlag n e.1 ≠ 0 ∧ k = .country e.2 then [n] else []

theorem write_if (n : Network) (w : Outputs) (hn : (w.map (·.1)).Nodup) (k : Key) (p : Prop) [Decidable p] :
    (if p then outWrite n w k else w) = w.map fun e => (e.1, e.2 ++ if p ∧ e.1 = k then [n] else []) := by
  split
  · rename_i h
    rw [outWrite_eq n w hn]
    apply List.map_congr_left
    rintro ⟨k', l⟩ _
    by_cases h' : k' = k <;> simp [h, h']
  · rename_i h
    conv => lhs; rw [← List.map_id w]
    apply List.map_congr_left
    rintro ⟨k', l⟩ _
    simp [h]

theorem map_keys (w : Outputs) (g : Key → List Network) : (w.map fun e => (e.1, e.2 ++ g e.1)).map (·.1) = w.map (·.1) := by
  rw [List.map_map]; rfl

theorem flags_fold (n : Network) (fl : List (BitVec 32 × CStr)) : ∀ w : Outputs, (w.map (·.1)).Nodup →
    fl.foldl (exportFlag n) w = w.map fun e => (e.1, e.2 ++ fl.flatMap fun x => if hasFlag n x.1 ≠ 0 ∧ e.1 = .country x.2 then [n] else []) := by
  induction fl with
  | nil => intro w _; simp
  | cons x fl ih =>
    intro w hn
    have h1 : exportFlag n w x = w.map fun e => (e.1, e.2 ++ if hasFlag n x.1 ≠ 0 ∧ e.1 = .country x.2 then [n] else []) :=
      write_if n w hn (.country x.2) (hasFlag n x.1 ≠ 0)
    rw [List.foldl_cons, h1, ih]
    · rw [List.map_map]
      apply List.map_congr_left
      rintro ⟨k, l⟩ _
      simp only [Function.comp_apply, List.flatMap_cons, List.append_assoc]
    · rw [map_keys w fun k => if hasFlag n x.1 ≠ 0 ∧ k = .country x.2 then [n] else []]
      exact hn

theorem exportNetwork_eq (w : Outputs) (hn : (w.map (·.1)).Nodup) (n : Network) :
    exportNetwork w n = w.map fun e => (e.1, e.2 ++ hits n e.1) := by
  have h1 : outWrite n w (.country (countryCode n)) = w.map fun e => (e.1, e.2 ++ if e.1 = .country (countryCode n) then [n] else []) := by
    have := write_if n w hn (.country (countryCode n)) True
    simpa using this
  have k1 : ((w.map fun e => (e.1, e.2 ++ if e.1 = Key.country (countryCode n) then [n] else [])).map (·.1)).Nodup := by
    rw [map_keys w fun k => if k = Key.country (countryCode n) then [n] else []]; exact hn
  have h2 : ∀ w : Outputs, (w.map (·.1)).Nodup → (if n.asn = 0 then w else outWrite n w (.asn n.asn.toNat)) =
      w.map fun e => (e.1, e.2 ++ if n.asn ≠ 0 ∧ e.1 = .asn n.asn.toNat then [n] else []) := by
    intro w hn
    rw [← write_if n w hn (.asn n.asn.toNat) (n.asn ≠ 0)]
    by_cases h : n.asn = 0 <;> simp [h]
  unfold exportNetwork
  simp only []
  rw [h1, h2 _ k1, flags_fold]
  · rw [List.map_map, List.map_map]
    apply List.map_congr_left
    rintro ⟨k, l⟩ _
    simp only [Function.comp_apply, hits, List.append_assoc]
  · rw [map_keys _ fun k => if n.asn ≠ 0 ∧ k = .asn n.asn.toNat then [n] else []]
    exact k1

theorem exportNetworks_eq (R : List Network) : ∀ w : Outputs, (w.map (·.1)).Nodup →
    R.foldl exportNetwork w = w.map fun e => (e.1, e.2 ++ R.flatMap fun n => hits n e.1) := by
  induction R with
  | nil => intro w _; simp
  | cons n R ih =>
    intro w hn
    rw [List.foldl_cons, exportNetwork_eq w hn, ih]
    · rw [List.map_map]
      apply List.map_congr_left
      rintro ⟨k, l⟩ _
      simp only [Function.comp_apply, List.flatMap_cons, List.append_assoc]
    · rw [map_keys w (hits n)]; exact hn

theorem hasFlag_bit (n : Network) (i : Nat) (hi : i < 32) : hasFlag n (BitVec.twoPow 32 i) ≠ 0 ↔ n.flags.getLsbD i = true := by
  unfold hasFlag
  rw [BitVec.and_twoPow]
  split
  · rename_i h
    simp only [h, iff_true, ne_eq]
    intro h0
    have := congrArg (·.getLsbD i) h0
    simp [BitVec.getLsbD_twoPow, hi] at this
  · rename_i h
    simp [h]

instance (k : Key) (n : Network) : Decidable (BelongsTo k n) := by
  unfold BelongsTo
  split
  · infer_instance
  · split <;> infer_instance

theorem once_each {cc c A B C D : CStr} (n : Network) {b0 b1 b2 b3 : Prop} [Decidable b0] [Decidable b1] [Decidable b2] [Decidable b3]
    (hA : cc ≠ A) (hB : cc ≠ B) (hC : cc ≠ C) (hD : cc ≠ D) (h1 : A ≠ B) (h2 : A ≠ C) (h3 : A ≠ D) (h4 : B ≠ C) (h5 : B ≠ D) (h6 : C ≠ D)
    {p : Prop} [Decidable p] (hp : p ↔ c = cc ∨ b0 ∧ c = A ∨ b1 ∧ c = B ∨ b2 ∧ c = C ∨ b3 ∧ c = D) :
    (if c = cc then [n] else []) ++ ((if b0 ∧ c = A then [n] else []) ++ ((if b1 ∧ c = B then [n] else []) ++
      ((if b2 ∧ c = C then [n] else []) ++ if b3 ∧ c = D then [n] else []))) = if p then [n] else [] := by
  by_cases c0 : c = cc
  · subst c0
    rw [if_pos (hp.mpr (Or.inl rfl))]
    simp [hA, hB, hC, hD]
  by_cases c1 : c = A
  · subst c1
    simp [hp, c0, h1, h2, h3]
  by_cases c2 : c = B
  · subst c2
    simp [hp, c0, c1, h4, h5]
  by_cases c3 : c = C
  · subst c3
    simp [hp, c0, c1, c2, h6]
  by_cases c4 : c = D
  · subst c4
    simp [hp, c0, c1, c2, c3]
  · simp [hp, c0, c1, c2, c3, c4]

theorem valid_not_special {s : CStr} (hc : s = [] ∨ ValidCC s) : specialBit s = none := by
  rcases hc with rfl | ⟨c0, c1, rfl, h1, h2, h3, h4, h5⟩
  · rfl
  · unfold specialBit
    rw [if_neg, if_neg, if_neg, if_neg]
    all_goals
      intro h
      simp only [List.cons.injEq, and_true] at h
      obtain ⟨rfl, rfl⟩ := h
      revert h1 h2 h3 h4 h5
      decide

theorem specialBit_cases (c : CStr) (p : Option Nat → Prop) (h0 : c = [65, 49] → p (some 0)) (h1 : c = [65, 50] → p (some 1)) (h2 : c = [65, 51] → p (some 2))
    (h3 : c = [88, 68] → p (some 3)) (h4 : c ≠ [65, 49] → c ≠ [65, 50] → c ≠ [65, 51] → c ≠ [88, 68] → p none) : p (specialBit c) := by
  unfold specialBit
  split
  · exact h0 ‹_›
  split
  · exact h1 ‹_›
  split
  · exact h2 ‹_›
  split
  · exact h3 ‹_›
  · exact h4 ‹_› ‹_› ‹_› ‹_›

/-- A network is written once to the outputs it belongs to. -/
theorem hits_eq {n : Network} (hc : (props n).1 = [] ∨ ValidCC (props n).1) (k : Key) : hits n k = if BelongsTo k n then [n] else [] := by
  have f0 : hasFlag n FLAG_ANONYMOUS_PROXY ≠ 0 ↔ n.flags.getLsbD 0 = true := hasFlag_bit n 0 (by decide)
  have f1 : hasFlag n FLAG_SATELLITE_PROVIDER ≠ 0 ↔ n.flags.getLsbD 1 = true := hasFlag_bit n 1 (by decide)
  have f2 : hasFlag n FLAG_ANYCAST ≠ 0 ↔ n.flags.getLsbD 2 = true := hasFlag_bit n 2 (by decide)
  have f3 : hasFlag n FLAG_DROP ≠ 0 ↔ n.flags.getLsbD 3 = true := hasFlag_bit n 3 (by decide)
  unfold hits exportFlags
  have hcc : countryCode n = (props n).1 := rfl
  rw [hcc]
  have hs := valid_not_special hc
  have hx : ∀ c, specialBit c ≠ none → (props n).1 ≠ c := by
    rintro c h rfl
    exact h hs
  cases k with
  | asn x =>
    have : (n.asn ≠ 0 ∧ x = n.asn.toNat) ↔ BelongsTo (.asn x) n := by
      show _ ↔ (x ≠ 0 ∧ n.asn.toNat = x)
      constructor
      · rintro ⟨h, rfl⟩
        exact ⟨fun h' => h (BitVec.eq_of_toNat_eq h'), rfl⟩
      · rintro ⟨h, rfl⟩
        exact ⟨fun h' => h (by rw [h']; rfl), rfl⟩
    simp only [reduceCtorEq, if_false, List.nil_append, and_false, List.append_nil, Key.asn.injEq, this, List.flatMap_cons, List.flatMap_nil]
  | country c =>
    have hp : BelongsTo (.country c) n ↔ c = (props n).1 ∨ n.flags.getLsbD 0 = true ∧ c = [65, 49] ∨ n.flags.getLsbD 1 = true ∧ c = [65, 50] ∨
        n.flags.getLsbD 2 = true ∧ c = [65, 51] ∨ n.flags.getLsbD 3 = true ∧ c = [88, 68] := by
      show (match specialBit c with
        | some i => n.flags.getLsbD i = true
        | none => (props n).1 = c) ↔ _
      have hx' := hx c
      generalize (props n).1 = q at *
      by_cases c0 : c = [65, 49]
      · subst c0
        have : q ≠ [65, 49] := hx' (by decide)
        show n.flags.getLsbD 0 = true ↔ _
        constructor
        · intro h; exact Or.inr (Or.inl ⟨h, rfl⟩)
        · rintro (h | ⟨h, -⟩ | ⟨-, h⟩ | ⟨-, h⟩ | ⟨-, h⟩)
          · exact absurd h.symm this
          · exact h
          all_goals exact absurd h (by decide)
      by_cases c1 : c = [65, 50]
      · subst c1
        have : q ≠ [65, 50] := hx' (by decide)
        show n.flags.getLsbD 1 = true ↔ _
        constructor
        · intro h; exact Or.inr (Or.inr (Or.inl ⟨h, rfl⟩))
        · rintro (h | ⟨-, h⟩ | ⟨h, -⟩ | ⟨-, h⟩ | ⟨-, h⟩)
          · exact absurd h.symm this
          · exact absurd h (by decide)
          · exact h
          all_goals exact absurd h (by decide)
      by_cases c2 : c = [65, 51]
      · subst c2
        have : q ≠ [65, 51] := hx' (by decide)
        show n.flags.getLsbD 2 = true ↔ _
        constructor
        · intro h; exact Or.inr (Or.inr (Or.inr (Or.inl ⟨h, rfl⟩)))
        · rintro (h | ⟨-, h⟩ | ⟨-, h⟩ | ⟨h, -⟩ | ⟨-, h⟩)
          · exact absurd h.symm this
          · exact absurd h (by decide)
          · exact absurd h (by decide)
          · exact h
          · exact absurd h (by decide)
      by_cases c3 : c = [88, 68]
      · subst c3
        have : q ≠ [88, 68] := hx' (by decide)
        show n.flags.getLsbD 3 = true ↔ _
        constructor
        · intro h; exact Or.inr (Or.inr (Or.inr (Or.inr ⟨h, rfl⟩)))
        · rintro (h | ⟨-, h⟩ | ⟨-, h⟩ | ⟨-, h⟩ | ⟨h, -⟩)
          · exact absurd h.symm this
          · exact absurd h (by decide)
          · exact absurd h (by decide)
          · exact absurd h (by decide)
          · exact h
      · have : specialBit c = none := by unfold specialBit; rw [if_neg c0, if_neg c1, if_neg c2, if_neg c3]
        rw [this]
        show q = c ↔ _
        constructor
        · intro h; exact Or.inl h.symm
        · rintro (h | ⟨-, h⟩ | ⟨-, h⟩ | ⟨-, h⟩ | ⟨-, h⟩)
          · exact h.symm
          · exact absurd h c0
          · exact absurd h c1
          · exact absurd h c2
          · exact absurd h c3
    rw [← once_each n (hx [65, 49] (by decide)) (hx [65, 50] (by decide)) (hx [65, 51] (by decide)) (hx [88, 68] (by decide))
      (by decide) (by decide) (by decide) (by decide) (by decide) (by decide) hp]
    generalize (props n).1 = q
    generalize hA : ([65, 49] : CStr) = A
    generalize hB : ([65, 50] : CStr) = B
    generalize hC : ([65, 51] : CStr) = C
    generalize hD : ([88, 68] : CStr) = D
    simp only [reduceCtorEq, and_false, if_false, List.append_nil, Key.country.injEq, List.flatMap_cons, List.flatMap_nil, f0, f1, f2, f3]

theorem flatMap_if {α : Type} (l : List α) (p : α → Prop) [DecidablePred p] : (l.flatMap fun x => if p x then [x] else []) = l.filter (fun x => decide (p x)) := by
  induction l with
  | nil => rfl
  | cons x l ih =>
    rw [List.flatMap_cons, ih, List.filter_cons]
    by_cases h : p x <;> simp [h]

theorem first_inside {n : Network} (h : Block n) : Contains n n.first := ⟨Nat.le_refl _, by have := h.last_eq; omega⟩

/-! ### The filter -/

theorem plain_iff {countries : List CStr} {c : CStr} : c ∈ plainCountries countries ↔ c ∈ countries ∧ specialBit c = none := by
  unfold plainCountries
  rw [List.mem_filter]
  have : (!(exportFlags.map (·.2)).contains c) = true ↔ specialBit c = none := by
    refine specialBit_cases c (fun o => (!(exportFlags.map (·.2)).contains c) = true ↔ o = none) ?_ ?_ ?_ ?_ ?_
    · rintro rfl; decide
    · rintro rfl; decide
    · rintro rfl; decide
    · rintro rfl; decide
    · intro c0 c1 c2 c3
      simp only [iff_true, Bool.not_eq_true', List.contains_eq_mem, decide_eq_false_iff_not]
      intro h
      simp only [exportFlags, List.map_cons, List.map_nil, List.mem_cons, List.not_mem_nil, or_false] at h
      rcases h with h | h | h | h
      · exact c0 h
      · exact c1 h
      · exact c2 h
      · exact c3 h
  rw [this]

theorem countryNew_valid {c : CStr} (h : ValidCC c) : ∃ x, countryNew (some c) = .ok x ∧ [x.c0, x.c1] = c := by
  have hv := (ccIsValid_iff c).mpr h
  obtain ⟨c0, c1, rfl, -⟩ := h
  unfold countryNew
  simp only [hv, Bool.not_true, Bool.false_eq_true, if_false]
  exact ⟨_, rfl, rfl⟩

theorem ccCmp_zero {a b c d : Byte} : ccCmp a b c d = 0 ↔ a = c ∧ b = d := by
  unfold ccCmp
  constructor
  · intro h
    split at h
    · cases h
    split at h
    · cases h
    split at h
    · cases h
    split at h
    · cases h
    rename_i h1 h2 h3 h4
    exact ⟨BitVec.le_antisymm (BitVec.not_lt.mp h2) (BitVec.not_lt.mp h1), BitVec.le_antisymm (BitVec.not_lt.mp h4) (BitVec.not_lt.mp h3)⟩
  · rintro ⟨rfl, rfl⟩
    simp

theorem countryAppend_codes (l : List Country) (x : Country) (c : CStr) :
    (∃ y ∈ countryListAppend l x, [y.c0, y.c1] = c) ↔ [x.c0, x.c1] = c ∨ ∃ y ∈ l, [y.c0, y.c1] = c := by
  unfold countryListAppend
  split
  · rename_i h
    unfold countryListContains at h
    rw [List.any_eq_true] at h
    obtain ⟨d, hd, he⟩ := h
    have := ccCmp_zero.mp (eq_of_beq he)
    constructor
    · exact Or.inr
    · rintro (rfl | h)
      · exact ⟨d, hd, by rw [this.1, this.2]⟩
      · exact h
  · simp only [List.mem_append, List.mem_singleton]
    constructor
    · rintro ⟨y, hy | rfl, h⟩
      · exact Or.inr ⟨y, hy, h⟩
      · exact Or.inl h
    · rintro (h | ⟨y, hy, h⟩)
      · exact ⟨x, Or.inr rfl, h⟩
      · exact ⟨y, Or.inl hy, h⟩

theorem searchCountries_ok : ∀ (cs : List CStr) (l : List Country), (∀ c ∈ cs, ValidCC c) →
    ∃ cl, searchCountries cs l = .ok cl ∧ ∀ c, (∃ y ∈ cl, [y.c0, y.c1] = c) ↔ c ∈ cs ∨ ∃ y ∈ l, [y.c0, y.c1] = c := by
  intro cs
  induction cs with
  | nil => intro l _; exact ⟨l, rfl, by simp⟩
  | cons c cs ih =>
    intro l h
    obtain ⟨x, hx, he⟩ := countryNew_valid (h c (by simp))
    obtain ⟨cl, h1, h2⟩ := ih (countryListAppend l x) (fun c hc => h c (by simp [hc]))
    refine ⟨cl, ?_, fun c' => ?_⟩
    · rw [searchCountries, hx]; exact h1
    · rw [h2, countryAppend_codes, he, List.mem_cons, @eq_comm _ c c']
      tauto

theorem searchAsns_iff (asns : List Nat) (x : BitVec 32) : (∃ a ∈ searchAsns asns, a.number = x) ↔ ∃ y ∈ asns, BitVec.ofNat 32 y = x := by
  have key : ∀ (asns : List Nat) (l : List AS), (∃ a ∈ asns.foldl (fun l a => asListAppend l ⟨BitVec.ofNat 32 a, none⟩) l, a.number = x) ↔
      (∃ y ∈ asns, BitVec.ofNat 32 y = x) ∨ ∃ a ∈ l, a.number = x := by
    intro asns
    induction asns with
    | nil => intro l; simp
    | cons y asns ih =>
      intro l
      rw [List.foldl_cons, ih]
      have : (∃ a ∈ asListAppend l ⟨BitVec.ofNat 32 y, none⟩, a.number = x) ↔ BitVec.ofNat 32 y = x ∨ ∃ a ∈ l, a.number = x := by
        unfold asListAppend
        split
        · rename_i h
          unfold asListContains at h
          rw [List.any_eq_true] at h
          obtain ⟨d, hd, he⟩ := h
          constructor
          · exact Or.inr
          · rintro (h | h)
            · exact ⟨d, hd, (eq_of_beq he).trans h⟩
            · exact h
        · simp only [List.mem_append, List.mem_singleton]
          constructor
          · rintro ⟨a, ha | rfl, h⟩
            · exact Or.inr ⟨a, ha, h⟩
            · exact Or.inl h
          · rintro (h | ⟨a, ha, h⟩)
            · exact ⟨_, Or.inr rfl, h⟩
            · exact ⟨a, Or.inl ha, h⟩
      rw [this]
      simp only [List.mem_cons, exists_eq_or_imp]
      rw [or_left_comm, or_assoc]
  have := key asns []
  simpa [searchAsns] using this

/-! ## C50 -/

theorem bit_mod (x : BitVec 32) (i : Nat) (hi : i < 16) : (BitVec.ofNat 32 (x.toNat % 2 ^ 16)).getLsbD i = x.getLsbD i := by
  rw [BitVec.getLsbD_ofNat, Nat.testBit_mod_two_pow]
  simp [hi, show i < 32 by omega, BitVec.getLsbD]

theorem specialBit_lt {c : CStr} {i : Nat} (h : specialBit c = some i) : i < 16 := by
  unfold specialBit at h
  split at h
  · cases h; decide
  split at h
  · cases h; decide
  split at h
  · cases h; decide
  split at h
  · cases h; decide
  · cases h

/-- Belonging to a country, an AS or a flag only depends on what is read back. -/
theorem belongs_readFrom {n m : Network} (h : props m = ((props n).1, n.asn, BitVec.ofNat 32 (n.flags.toNat % 2 ^ 16))) (k : Key) :
    BelongsTo k m ↔ BelongsTo k n := by
  have h1 : (props m).1 = (props n).1 := congrArg (·.1) h
  have h2 : m.asn = n.asn := congrArg (·.2.1) h
  have h3 : m.flags = BitVec.ofNat 32 (n.flags.toNat % 2 ^ 16) := congrArg (·.2.2) h
  unfold BelongsTo
  cases k with
  | asn x => simp only [h2]
  | country c =>
    simp only []
    split
    · rename_i i hi
      rw [h3, bit_mod _ _ (specialBit_lt hi)]
    · rw [h1]

/-- The outputs of an export of any database that can be enumerated (C16, C19), whatever was asked for: one for each country code and AS number; its networks are
    disjoint, ascending CIDR blocks; they cover exactly the addresses whose most specific stored network is of the
    family, belongs to the country, AS or flag, and in addition is in one of the ordinary countries or ASes that were
    asked for.  An export is given up with an exception only if the database has a
    network with another one inside such that one of the two odd blocks would have to be cut (C28). -/
theorem export_sound {K : Type} {ctz0 : Nat} (h0 : 8 ≤ ctz0) {key1 key2 : Option K} {ops : List (WOp K)} {e : WEnv K}
    {w : Writer K} {f : Bytes} (h : Written ctz0 key1 key2 ops e w f) {db : Db} (ho : dbOpen f = .ok db)
    (hd : ¬ TooDeep (· ∈ w.networks.networks)) (hv : ∀ n ∈ w.networks.networks, ¬ AroundV4 n)
    (family : Nat) {countries : List CStr} (hc : CodesOk countries) (asns : List Nat) :
    ∃ r steps, (∀ fuel, steps ≤ fuel → exportFamily db fuel family countries asns = .ok r) ∧
      (r = .raised → ∃ n ∈ w.networks.networks, ∃ m ∈ w.networks.networks, StrictlyInside m n ∧ CutsOddBlock n m) ∧
      ∀ out, r = .ok out →
      (out.map (·.1)).Nodup ∧ (∀ k, (∃ L, (k, L) ∈ out) ↔ Asked countries asns k) ∧
      ∀ k L, (k, L) ∈ out → PairwiseDisjoint L ∧ Ascending L ∧ (∀ n ∈ L, Block n) ∧
        ∀ a, (∃ m ∈ L, Contains m a) ↔
          ∃ n, MostSpecific (· ∈ w.networks.networks) a n ∧ OfFamily family n ∧ BelongsTo k n ∧ Listed countries asns n := by
  obtain ⟨cl, c1, c2⟩ := searchCountries_ok (plainCountries countries) [] (by
    intro c h
    obtain ⟨h1, h2⟩ := plain_iff.mp h
    exact (hc c h1).resolve_right (fun h => h h2))
  have hcl : ∀ c, (∃ y ∈ cl, [y.c0, y.c1] = c) ↔ c ∈ countries ∧ specialBit c = none := by
    intro c
    rw [c2, plain_iff]
    simp
  have hflt : FilterOk ⟨family, some cl, some (searchAsns asns), 0⟩ := by
    rintro l hl c hcm
    cases hl
    obtain ⟨h1, h2⟩ := (hcl [c.c0, c.c1]).mp ⟨c, hcm, rfl⟩
    exact (ccIsValid_iff _).mpr ((hc _ h1).resolve_right (fun h => h h2))
  obtain ⟨R, ended, s, steps, r1, r3, r4, r5, rs, re, rf⟩ := flattened_sound h0 h ho hd hv hflt
  cases ended with
  | false =>
    obtain ⟨i, hi, j, hj, q1, q2, -⟩ := rf rfl
    refine ⟨.raised, steps, ?_, fun _ => ⟨i, hi, j, hj, q1, q2⟩, fun out h => by cases h⟩
    intro fuel hf
    unfold exportFamily
    rw [c1]
    simp only [r1 fuel fuel hf hf]
  | true =>
  have r6 : ∀ a p, (∃ m ∈ R, Contains m a ∧ props m = p) ↔ ∃ n k, MostSpecific (· ∈ w.networks.networks) a n ∧ ReadFrom n k ∧
      Wanted ⟨family, some cl, some (searchAsns asns), 0⟩ k ∧ props k = p := by
    intro a p
    constructor
    · rintro ⟨m, hm, hma, rfl⟩
      exact rs m hm a hma
    · rintro ⟨n, k, q1, q2, q3, rfl⟩
      exact (re rfl).2 a n k q1 q2 q3
  obtain ⟨w1, w2, w3⟩ := exportWriters_keys countries asns
  have hcn : ∀ n ∈ w.networks.networks, CountryOk n := fun n hn => ((flat_written h0 h ho hd hv noFilter).2.2 n hn).2
  have hRc : ∀ m ∈ R, (props m).1 = [] ∨ ValidCC (props m).1 := by
    intro m hm
    obtain ⟨n, k, g1, g2, -, g4⟩ := (r6 m.first (props m)).mp ⟨m, hm, by
      have := r5 m hm
      exact first_inside this, rfl⟩
    rw [← g4, g2.2]
    have := hcn n g1.1
    show (props n).1 = [] ∨ ValidCC (props n).1
    unfold props
    rcases this with h | h
    · left; simp [h]
    · right
      obtain ⟨c0, c1, he, g⟩ := h
      simp only [List.cons.injEq, and_true] at he
      obtain ⟨rfl, rfl⟩ := he
      have n0 : n.cc0 ≠ 0 := by intro h; rw [h] at g; exact absurd g.1 (by decide)
      have n1 : n.cc1 ≠ 0 := by intro h; rw [h] at g; exact absurd g.2.2.1 (by decide)
      simp only [n0, n1, if_false]
      exact ⟨_, _, rfl, g⟩
  refine ⟨.ok (R.foldl exportNetwork (exportWriters countries asns)), steps, ?_, (fun h => by cases h), ?_⟩
  · intro fuel hf
    unfold exportFamily
    rw [c1]
    simp only [r1 fuel fuel hf hf]
  rintro out ⟨⟩
  refine ⟨?_, ?_, ?_⟩
  · rw [exportNetworks_eq R _ w1, map_keys (exportWriters countries asns) fun k => R.flatMap fun n => hits n k]
    exact w1
  · intro k
    rw [exportNetworks_eq R _ w1, ← w3 k]
    simp only [List.mem_map, Prod.mk.injEq]
    constructor
    · rintro ⟨L, e, he, rfl, rfl⟩
      exact ⟨e, he, rfl⟩
    · rintro ⟨e, he, rfl⟩
      exact ⟨_, e, he, rfl, rfl⟩
  · intro k L hkL
    rw [exportNetworks_eq R _ w1, List.mem_map] at hkL
    obtain ⟨e, he, heq⟩ := hkL
    simp only [Prod.mk.injEq] at heq
    obtain ⟨rfl, rfl⟩ := heq
    rw [w2 e he, List.nil_append]
    have hL : (R.flatMap fun n => hits n e.1) = R.filter fun n => decide (BelongsTo e.1 n) := by
      rw [← flatMap_if, List.flatMap_def, List.flatMap_def]
      congr 1
      apply List.map_congr_left
      intro n hn
      exact hits_eq (hRc n hn) e.1
    rw [hL]
    refine ⟨r3.filter _, r4.filter _, fun n hn => r5 n (List.mem_filter.mp hn).1, fun a => ?_⟩
    constructor
    · rintro ⟨m, hm, hma⟩
      obtain ⟨hm, hb⟩ := List.mem_filter.mp hm
      obtain ⟨n, k, g1, g2, g3, g4⟩ := (r6 a (props m)).mp ⟨m, hm, hma, rfl⟩
      have hbm : BelongsTo e.1 n := (belongs_readFrom (g4.symm.trans g2.2) e.1).mp (of_decide_eq_true hb)
      refine ⟨n, g1, ?_, hbm, ?_⟩
      · have := g3.1
        rw [value_inj g2.1.1] at this
        exact this
      · have p1 : (props k).1 = (props n).1 := congrArg (·.1) g2.2
        have p2 : k.asn = n.asn := congrArg (·.2.1) g2.2
        rcases g3.2 with h | ⟨l, hl, c, hc', h⟩ | ⟨l, hl, x, hx, h⟩ | ⟨i, hi, -⟩
        · cases h.1
        · cases hl
          obtain ⟨q1, q2⟩ := (hcl _).mp ⟨c, hc', rfl⟩
          exact Or.inl ⟨_, q1, q2, by rw [h, p1]⟩
        · cases hl
          obtain ⟨y, hy, hh⟩ := (searchAsns_iff asns n.asn).mp ⟨x, hx, h.trans p2⟩
          exact Or.inr ⟨y, hy, hh⟩
        · simp at hi
    · rintro ⟨n, g1, g2, g3, g4⟩
      have hrf := readFrom_readBack n
      have p1 : (props (readBack n)).1 = (props n).1 := congrArg (·.1) hrf.2
      have p2 : (readBack n).asn = n.asn := congrArg (·.2.1) hrf.2
      have hw : Wanted ⟨family, some cl, some (searchAsns asns), 0⟩ (readBack n) := by
        refine ⟨?_, ?_⟩
        · rw [value_inj hrf.1.1]
          exact g2
        · rcases g4 with ⟨c, q1, q2, q3⟩ | ⟨y, hy, hh⟩
          · obtain ⟨x, hx, he⟩ := (hcl c).mpr ⟨q1, q2⟩
            exact Or.inr (Or.inl ⟨cl, rfl, x, hx, by rw [he, p1, q3]⟩)
          · obtain ⟨x, hx, he⟩ := (searchAsns_iff asns n.asn).mpr ⟨y, hy, hh⟩
            exact Or.inr (Or.inr (Or.inl ⟨_, rfl, x, hx, by rw [he, p2]⟩))
      obtain ⟨m, hm, hma, hp⟩ := (r6 a (props (readBack n))).mpr ⟨n, readBack n, g1, hrf, hw, rfl⟩
      refine ⟨m, List.mem_filter.mpr ⟨hm, ?_⟩, hma⟩
      rw [decide_eq_true_eq, belongs_readFrom (n := n) (hp.trans hrf.2)]
      exact g3

/-- In particular if there are no such networks. -/
theorem export_outputs {K : Type} {ctz0 : Nat} (h0 : 8 ≤ ctz0) {key1 key2 : Option K} {ops : List (WOp K)} {e : WEnv K}
    {w : Writer K} {f : Bytes} (h : Written ctz0 key1 key2 ops e w f) {db : Db} (ho : dbOpen f = .ok db)
    (hd : ¬ TooDeep (· ∈ w.networks.networks)) (hv : ∀ n ∈ w.networks.networks, ¬ AroundV4 n)
    (hodd : ∀ m ∈ w.networks.networks, ∀ n ∈ w.networks.networks, StrictlyInside m n → ¬ CutsOddBlock n m)
    (family : Nat) {countries : List CStr} (hc : CodesOk countries) (asns : List Nat) :
    ∃ out steps, (∀ fuel, steps ≤ fuel → exportFamily db fuel family countries asns = .ok (.ok out)) ∧
      (out.map (·.1)).Nodup ∧ (∀ k, (∃ L, (k, L) ∈ out) ↔ Asked countries asns k) ∧
      ∀ k L, (k, L) ∈ out → PairwiseDisjoint L ∧ Ascending L ∧ (∀ n ∈ L, Block n) ∧
        ∀ a, (∃ m ∈ L, Contains m a) ↔
          ∃ n, MostSpecific (· ∈ w.networks.networks) a n ∧ OfFamily family n ∧ BelongsTo k n ∧ Listed countries asns n := by
  obtain ⟨r, steps, g1, g2, g3⟩ := export_sound h0 h ho hd hv family hc asns
  cases r with
  | raised =>
    obtain ⟨n, hn, m, hm, q1, q2⟩ := g2 rfl
    exact absurd q2 (hodd m hm n hn q1)
  | ok out => exact ⟨out, steps, g1, g3 out rfl⟩

/-- C50 for ordinary countries and ASes: the output covers exactly the addresses whose most specific stored network is
    of the family and belongs to it. Missing: special country codes (`export_special_empty`, `export_violated`), and the
    databases C28 does not cover. -/
theorem export_exact_partial {K : Type} {ctz0 : Nat} (h0 : 8 ≤ ctz0) {key1 key2 : Option K} {ops : List (WOp K)} {e : WEnv K}
    {w : Writer K} {f : Bytes} (h : Written ctz0 key1 key2 ops e w f) {db : Db} (ho : dbOpen f = .ok db)
    (hd : ¬ TooDeep (· ∈ w.networks.networks)) (hv : ∀ n ∈ w.networks.networks, ¬ AroundV4 n)
    (hodd : ∀ m ∈ w.networks.networks, ∀ n ∈ w.networks.networks, StrictlyInside m n → ¬ CutsOddBlock n m)
    (family : Nat) {countries : List CStr} (hc : CodesOk countries) (asns : List Nat) :
    ∃ out steps, (∀ fuel, steps ≤ fuel → exportFamily db fuel family countries asns = .ok (.ok out)) ∧
      (out.map (·.1)).Nodup ∧ (∀ k, (∃ L, (k, L) ∈ out) ↔ Asked countries asns k) ∧
      ∀ k L, (k, L) ∈ out → (∀ c, k = .country c → specialBit c = none) → PairwiseDisjoint L ∧ Ascending L ∧ (∀ n ∈ L, Block n) ∧
        ∀ a, (∃ m ∈ L, Contains m a) ↔ ∃ n, MostSpecific (· ∈ w.networks.networks) a n ∧ OfFamily family n ∧ BelongsTo k n := by
  obtain ⟨out, steps, g1, g2, g3, g4⟩ := export_outputs h0 h ho hd hv hodd family hc asns
  refine ⟨out, steps, g1, g2, g3, fun k L hk hs => ?_⟩
  obtain ⟨i1, i2, i3, i4⟩ := g4 k L hk
  refine ⟨i1, i2, i3, fun a => (i4 a).trans ?_⟩
  have ha := (g3 k).mp ⟨L, hk⟩
  constructor
  · rintro ⟨n, j1, j2, j3, -⟩
    exact ⟨n, j1, j2, j3⟩
  · rintro ⟨n, j1, j2, j3⟩
    refine ⟨n, j1, j2, j3, ?_⟩
    cases k with
    | country c =>
      have := hs c rfl
      unfold BelongsTo at j3
      simp only [this] at j3
      exact Or.inl ⟨c, ha, this, j3⟩
    | asn x =>
      refine Or.inr ⟨x, ha, ?_⟩
      rw [← j3.2]
      simp

/-- If only special country codes are asked for, all outputs are empty. -/
theorem export_special_empty {K : Type} {ctz0 : Nat} (h0 : 8 ≤ ctz0) {key1 key2 : Option K} {ops : List (WOp K)} {e : WEnv K}
    {w : Writer K} {f : Bytes} (h : Written ctz0 key1 key2 ops e w f) {db : Db} (ho : dbOpen f = .ok db)
    (hd : ¬ TooDeep (· ∈ w.networks.networks)) (hv : ∀ n ∈ w.networks.networks, ¬ AroundV4 n)
    (hodd : ∀ m ∈ w.networks.networks, ∀ n ∈ w.networks.networks, StrictlyInside m n → ¬ CutsOddBlock n m)
    (family : Nat) {countries : List CStr} (hc : ∀ c ∈ countries, specialBit c ≠ none) :
    ∃ out steps, (∀ fuel, steps ≤ fuel → exportFamily db fuel family countries [] = .ok (.ok out)) ∧
      (∀ c ∈ countries, (Key.country c, []) ∈ out) ∧ ∀ e ∈ out, e.2 = [] := by
  obtain ⟨out, steps, g1, g2, g3, g4⟩ := export_outputs h0 h ho hd hv hodd family (countries := countries) (fun c hc' => Or.inr (hc c hc')) []
  have hz : ∀ k L, (k, L) ∈ out → L = [] := by
    intro k L hk
    cases L with
    | nil => rfl
    | cons m L =>
      exfalso
      obtain ⟨-, -, i3, i4⟩ := g4 _ _ hk
      obtain ⟨n, -, -, -, hl⟩ := (i4 m.first).mp ⟨m, by simp, first_inside (i3 m (by simp))⟩
      rcases hl with ⟨c, q1, q2, -⟩ | ⟨y, hy, -⟩
      · exact hc c q1 q2
      · cases hy
  refine ⟨out, steps, g1, ?_, fun e he => hz e.1 e.2 he⟩
  intro c hcc
  obtain ⟨L, hL⟩ := (g3 (.country c)).mpr hcc
  have := hz _ _ hL
  exact this ▸ hL

/-! ### Samples -/

/-- 8.0.0.0/8, anonymous proxy, country DE -/
def netA1 : Network := { net8_8 with cc0 := 68, cc1 := 69, flags := 1 }

def exportOps : List (WOp Unit) := [.addNetwork netA1]

theorem exportOps_ok : ∀ op ∈ exportOps, OpOk 32 op := by
  intro op h
  simp only [exportOps, List.mem_cons, List.not_mem_nil, or_false] at h
  subst h
  exact .flag (n := { net8_8 with cc0 := 68, cc1 := 69 }) 1 (.country (n := net8_8) (cc := some [68, 69])
    (.new (show newNetwork net8_8.first 8 = .ok net8_8 by decide +kernel)) (by decide +kernel))

theorem export_sample : ∃ w f db, Written 32 none none exportOps demoEnv w f ∧ dbOpen f = .ok db ∧ w.networks.networks = [netA1] ∧
    ¬ TooDeep (· ∈ w.networks.networks) ∧ (∀ n ∈ w.networks.networks, ¬ AroundV4 n) ∧
    ∀ m ∈ w.networks.networks, ∀ n ∈ w.networks.networks, StrictlyInside m n → ¬ CutsOddBlock n m := by
  obtain ⟨w, f, db, h1, h2, h3⟩ := example_file (l := [netA1]) exportOps_ok (by decide) (by decide +kernel) (by decide +kernel)
  refine ⟨w, f, db, h1, h2, h3, ?_, ?_, ?_⟩
  · rw [h3]
    intro hd
    obtain ⟨n, hn, hh, -⟩ := tooDeep_host (S := (· ∈ [netA1])) (by decide) hd
    revert hh n
    unfold IsHost
    decide
  · rw [h3]
    unfold AroundV4
    decide +kernel
  · rw [h3]
    have : ∀ m ∈ [netA1], ∀ n ∈ [netA1], ¬ CutsOddBlock n m := by decide +kernel
    exact fun m hm n hn _ => this m hm n hn

/-- The sample: `location export DE` covers 8.1.2.3. -/
example : ∃ w f db out steps L, Written 32 none none exportOps demoEnv w f ∧ dbOpen f = .ok db ∧
    (∀ fuel, steps ≤ fuel → exportFamily db fuel 2 [[68, 69]] [] = .ok (.ok out)) ∧ (Key.country [68, 69], L) ∈ out ∧
    ∃ m ∈ L, Contains m (ip4 8 1 2 3) := by
  obtain ⟨w, f, db, h1, h2, h3, h4, h5, h6⟩ := export_sample
  obtain ⟨out, steps, g1, -, g3, g4⟩ := export_exact_partial (by decide) h1 h2 h4 h5 h6 2 (countries := [[68, 69]])
    (by intro c hc; simp only [List.mem_singleton] at hc; subst hc; left; decide) []
  obtain ⟨L, hL⟩ := (g3 (.country [68, 69])).mpr (by simp [Asked])
  refine ⟨w, f, db, out, steps, L, h1, h2, g1, hL, ?_⟩
  rw [(g4 _ L hL (by rintro c ⟨⟩; decide)).2.2.2, h3]
  have key : ∀ m ∈ [netA1], Contains m (ip4 8 1 2 3) → m.pfx ≤ netA1.pfx := by decide
  exact ⟨netA1, ⟨by decide, by decide +kernel, key⟩, fun _ => Or.inl ⟨rfl, by decide +kernel⟩, by decide⟩

/-- C50 does not hold for special country codes: `location export A1` writes nothing although the database has a
    network of an anonymous proxy. -/
theorem export_violated : ∃ w f db out steps, Written 32 none none exportOps demoEnv w f ∧ dbOpen f = .ok db ∧
    (∀ fuel, steps ≤ fuel → exportFamily db fuel 2 [[65, 49]] [] = .ok (.ok out)) ∧ (Key.country [65, 49], []) ∈ out ∧
    ∃ a n, MostSpecific (· ∈ w.networks.networks) a n ∧ OfFamily 2 n ∧ BelongsTo (.country [65, 49]) n := by
  obtain ⟨w, f, db, h1, h2, h3, h4, h5, h6⟩ := export_sample
  obtain ⟨out, steps, g1, g2, -⟩ := export_special_empty (by decide) h1 h2 h4 h5 h6 2 (countries := [[65, 49]])
    (by intro c hc; simp only [List.mem_singleton] at hc; subst hc; decide)
  refine ⟨w, f, db, out, steps, h1, h2, g1, g2 _ (by simp), ip4 8 1 2 3, netA1, ?_, fun _ => Or.inl ⟨rfl, by decide +kernel⟩, by decide⟩
  rw [h3]
  have key : ∀ m ∈ [netA1], Contains m (ip4 8 1 2 3) → m.pfx ≤ netA1.pfx := by decide
  exact ⟨by decide, by decide +kernel, key⟩

end Loc.Props
