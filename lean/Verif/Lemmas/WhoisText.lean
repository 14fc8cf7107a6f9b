import Verif.Lemmas.RangeNet
import Verif.Lemmas.DumpRead
/-
Lemmas about the data of the registries: texts.
-/
namespace Loc
open Spec Props

/-! ## Lines and attributes -/

theorem bothTrimmed_iff {s t : Bytes} : BothTrimmed s t ↔ pyStrip s = t := by
  constructor
  · rintro ⟨ht, w1, w2, hs, h1, h2⟩
    exact strip_unique hs h1 h2 ht
  · rintro rfl
    exact strip_spec s

theorem endTrimmed_iff {s t : Bytes} : EndTrimmed s t ↔ pyRstrip s = t := by
  constructor
  · rintro ⟨⟨ws, hs, hw⟩, ht⟩
    exact rstrip_unique hs hw ht
  · rintro rfl
    obtain ⟨ws, h1, h2, h3⟩ := rstrip_spec s
    exact ⟨⟨ws, h1, h2⟩, h3⟩

theorem cut_byte {x : Byte} {s : Bytes} (h : x ∈ s) : ∃ t d, s = t ++ x :: d ∧ x ∉ t := by
  induction s with
  | nil => cases h
  | cons c s ih =>
    by_cases hc : c = x
    · exact ⟨[], s, by rw [hc]; rfl, by simp⟩
    · obtain ⟨t, d, e, ht⟩ := ih (by
        rcases List.mem_cons.mp h with h | h
        · exact absurd h.symm hc
        · exact h)
      refine ⟨c :: t, d, by rw [e]; rfl, ?_⟩
      intro hm
      rcases List.mem_cons.mp hm with hm | hm
      · exact hc hm.symm
      · exact ht hm

theorem attribute_iff {line : Bytes} {x : Bytes × Bytes} : Attribute line x ↔ splitLine line = x := by
  unfold Attribute splitLine
  constructor
  · rintro ⟨k, v, hk, hl, h1, h2⟩
    rw [bothTrimmed_iff] at h1 h2
    rcases hl with rfl | ⟨rfl, rfl⟩
    · rw [(split_byte hk).1, (split_byte hk).2, List.drop_succ_cons, List.drop_zero, h1, h2]
    · rw [(no_byte hk).1, (no_byte hk).2, List.drop_nil, h1, h2]
  · rintro rfl
    by_cases h : (58 : Byte) ∈ line
    · obtain ⟨k, v, rfl, hk⟩ := cut_byte h
      refine ⟨k, v, hk, .inl rfl, ?_, ?_⟩ <;> rw [bothTrimmed_iff]
      · rw [(split_byte hk).1]
      · rw [(split_byte hk).2, List.drop_succ_cons, List.drop_zero]
    · refine ⟨line, [], h, .inr ⟨rfl, rfl⟩, ?_, ?_⟩ <;> rw [bothTrimmed_iff]
      · rw [(no_byte h).1]
      · rw [(no_byte h).2, List.drop_nil]

theorem attributes_iff {block : List Bytes} {attrs : List (Bytes × Bytes)} : Attributes block attrs ↔ attrs = block.map splitLine := by
  unfold Attributes
  constructor
  · intro h
    induction h with
    | nil => rfl
    | cons hr _ ih => rw [List.map_cons, ih, attribute_iff.mp hr]
  · rintro rfl
    induction block with
    | nil => exact .nil
    | cons l block ih => exact .cons (attribute_iff.mpr rfl) ih

theorem isPrefixOf_iff' {p s : Bytes} : p.isPrefixOf s = true ↔ ∃ rest, s = p ++ rest := by
  rw [List.isPrefixOf_iff_prefix]
  constructor
  · rintro ⟨r, h⟩
    exact ⟨r, h.symm⟩
  · rintro ⟨r, h⟩
    exact ⟨r, h.symm⟩

theorem objectOf_iff {key : String} {line : Bytes} {more : List Bytes} : ObjectOf key (line :: more) ↔ (ascii key ++ [58]).isPrefixOf line = true := by
  rw [isPrefixOf_iff']
  unfold ObjectOf
  constructor
  · rintro ⟨r, m, h⟩
    cases h
    exact ⟨r, by simp⟩
  · rintro ⟨r, h⟩
    exact ⟨r, more, by rw [h]; simp⟩

theorem objectOf_nil {key : String} : ¬ ObjectOf key [] := by
  rintro ⟨r, m, h⟩
  cases h

/-! ## Numbers -/

theorem isDigit_iff (c : Byte) : isDigit c = true ↔ IsDigit c := by
  have h : isDigit c = true ↔ ((digitOf c).any fun d => decide (d < 10)) = true :=
    forall_byte (P := fun c => isDigit c = true ↔ ((digitOf c).any fun d => decide (d < 10)) = true) (by decide +kernel) c
  rw [h]
  unfold IsDigit
  cases digitOf c <;> simp

theorem pyUpper_eq (s : Bytes) : pyUpper s = s.map upper := rfl

theorem digits_head {k : Nat} {s : Bytes} (h : Digits k s) : ∃ c r, s = c :: r ∧ c ≠ 43 ∧ c ≠ 45 := by
  obtain ⟨ds, h1, h2, h3, -⟩ := h
  cases s with
  | nil =>
    cases ds with
    | nil => exact absurd rfl h3
    | cons => cases h1
  | cons c r =>
    refine ⟨c, r, rfl, ?_, ?_⟩ <;>
    · rintro rfl
      cases ds with
      | nil => cases h1
      | cons d ds =>
        rw [List.map_cons, List.map_cons] at h1
        injection h1 with e _
        revert e
        simp [digitOf, glyphs, List.findIdx?_cons]

theorem pyInt_iff {s : Bytes} {i : Int} : pyInt s = some i ↔ WholeNumber s i := by
  unfold WholeNumber
  constructor
  · intro h
    refine ⟨pyStrip s, bothTrimmed_iff.mpr rfl, ?_⟩
    unfold pyInt at h
    cases hs : pyStrip s with
    | nil => rw [hs] at h; cases h
    | cons c d =>
      rw [hs] at h
      simp only at h
      by_cases h43 : c = 43
      · rw [if_pos h43] at h
        obtain ⟨k, hk, rfl⟩ := Option.map_eq_some_iff.mp h
        exact .inr (.inl ⟨d, k, by rw [h43]; rfl, digitsOf_iff.mp hk, rfl⟩)
      · rw [if_neg h43] at h
        by_cases h45 : c = 45
        · rw [if_pos h45] at h
          obtain ⟨k, hk, rfl⟩ := Option.map_eq_some_iff.mp h
          exact .inr (.inr ⟨d, k, by rw [h45]; rfl, digitsOf_iff.mp hk, rfl⟩)
        · rw [if_neg h45] at h
          obtain ⟨k, hk, rfl⟩ := Option.map_eq_some_iff.mp h
          exact .inl ⟨k, digitsOf_iff.mp hk, rfl⟩
  · rintro ⟨u, hu, h⟩
    rw [bothTrimmed_iff] at hu
    unfold pyInt
    rw [hu]
    rcases h with ⟨k, hk, rfl⟩ | ⟨d, k, rfl, hk, rfl⟩ | ⟨d, k, rfl, hk, rfl⟩
    · obtain ⟨c, r, rfl, h1, h2⟩ := digits_head hk
      simp only
      rw [if_neg h1, if_neg h2, digitsOf_iff.mpr hk]
      rfl
    · show (if (43 : Byte) = 43 then (digitsOf d).map Int.ofNat else _) = _
      rw [if_pos rfl, digitsOf_iff.mpr hk]
      rfl
    · show (if (45 : Byte) = 43 then _ else if (45 : Byte) = 45 then (digitsOf d).map (fun k : Nat => -(k : Int)) else _) = _
      rw [if_neg (by decide), if_pos rfl, digitsOf_iff.mpr hk]
      rfl

/-! ## Networks -/

theorem checkNetwork_iff {e : WhoisEnv} {n : Network} (hn : BareNetwork n) : checkNetwork e n = true ↔ Acceptable e n := by
  have hb := bare_block hn
  unfold checkNetwork Acceptable
  have hf := hb.fam
  cases hg : e.isGlobal n
  · simp
  · cases hz : (allZeroes n.first && allZeroes n.last)
    · have hz' : ¬ (allZeroes n.first = true ∧ allZeroes n.last = true) := by
        rw [← Bool.and_eq_true, hz]
        simp
      simp only [Bool.not_true, Bool.false_eq_true, if_false, true_and]
      unfold netPrefix
      cases hfam : n.family with
      | inet6 =>
        have hv : ¬ IsV4 n.first := fun h => by rw [hf.mpr h] at hfam; cases hfam
        simp only [if_neg hv, Bool.not_eq_true', decide_eq_false_iff_not]
        exact ⟨fun h => ⟨hz', by omega⟩, fun h => by have := h.2; omega⟩
      | inet =>
        have hv : IsV4 n.first := hf.mp hfam
        simp only [if_pos hv, Bool.not_eq_true', decide_eq_false_iff_not]
        exact ⟨fun h => ⟨hz', by omega⟩, fun h => by have := h.2; omega⟩
    · have hz' : allZeroes n.first = true ∧ allZeroes n.last = true := by
        rw [← Bool.and_eq_true, hz]
      simp [hz']

theorem names_bare {s : Bytes} {n : Network} (h : NamesNet s n) : BareNetwork n := by
  rcases h with ⟨_, _, a, p, _, _, _, _, _, _, h⟩ | ⟨a, m, _, _, h⟩
  · exact ⟨a, p, h⟩
  · exact ⟨a, m, h⟩

theorem namesNet_unique {s : Bytes} {m n : Network} (hm : NamesNet s m) (hn : NamesNet s n) : m = n := by
  rw [← ipNetwork_iff] at hm hn
  rw [hm] at hn
  cases hn
  rfl

theorem cut_slash {u rest : Bytes} (hu : 47 ∉ u) (hr : rest = [] ∨ rest.head? = some 47) :
    (u ++ rest).takeWhile (· ≠ 47) = u := by
  rcases hr with rfl | hr
  · rw [List.append_nil, (no_byte hu).1]
  · cases rest with
    | nil => cases hr
    | cons c r =>
      cases hr
      exact (split_byte hu).1

theorem lacnic_iff {s : Bytes} {n : Network} : lacnicNetwork s = .ret (some n) ↔ NamesShort s n := by
  unfold lacnicNetwork NamesShort
  cases hs : ipNetwork s with
  | some m =>
    simp only [Call.ret.injEq, Option.some.injEq]
    have hm := ipNetwork_iff.mp hs
    constructor
    · rintro rfl
      exact .inl hm
    · rintro (h | ⟨h, -⟩)
      · exact namesNet_unique hm h
      · exact absurd hm (h m)
  | none =>
    have hno : ∀ m, ¬ NamesNet s m := fun m hm => by rw [ipNetwork_iff.mpr hm] at hs; cases hs
    simp only
    by_cases hc : (47 : Byte) ∈ s
    · obtain ⟨t, d, rfl, ht⟩ := cut_byte hc
      have hcc : (t ++ 47 :: d).contains 47 = true := by simp
      have hcut : ∃ u rest, d = u ++ rest ∧ 47 ∉ u ∧ (rest = [] ∨ rest.head? = some 47) := by
        by_cases hd : (47 : Byte) ∈ d
        · obtain ⟨u, r, rfl, hu⟩ := cut_byte hd
          exact ⟨u, 47 :: r, rfl, hu, .inr rfl⟩
        · exact ⟨d, [], by simp, hd, .inl rfl⟩
      obtain ⟨u, rest, rfl, hu, hr⟩ := hcut
      rw [(split_byte ht).1, (split_byte ht).2, List.drop_succ_cons, List.drop_zero, cut_slash hu hr, hcc]
      simp only [if_true]
      have key : ∀ {t' u' rest' : Bytes}, t ++ 47 :: (u ++ rest) = t' ++ 47 :: u' ++ rest' → 47 ∉ t' → 47 ∉ u' → (rest' = [] ∨ rest'.head? = some 47) →
          t' = t ∧ u' = u := by
        intro t' u' rest' he ht' hu' hr'
        rw [List.append_assoc, List.cons_append] at he
        have e1 : (t ++ 47 :: (u ++ rest)).takeWhile (· ≠ 47) = (t' ++ 47 :: (u' ++ rest')).takeWhile (· ≠ 47) := by rw [he]
        have e2 : ((t ++ 47 :: (u ++ rest)).dropWhile (· ≠ 47)).drop 1 = ((t' ++ 47 :: (u' ++ rest')).dropWhile (· ≠ 47)).drop 1 := by rw [he]
        rw [(split_byte ht).1, (split_byte ht').1] at e1
        rw [(split_byte ht).2, (split_byte ht').2] at e2
        simp only [List.drop_succ_cons, List.drop_zero] at e2
        have e3 : (u ++ rest).takeWhile (· ≠ 47) = (u' ++ rest').takeWhile (· ≠ 47) := by rw [e2]
        rw [cut_slash hu hr, cut_slash hu' hr'] at e3
        exact ⟨e1.symm, e3.symm⟩
      constructor
      · intro h
        refine .inr ⟨hno, t, u, rest, by simp, ht, hu, hr, ?_⟩
        by_cases h1 : t.count 46 = 1
        · rw [if_pos h1] at h
          exact .inl ⟨h1, ipNetwork_iff.mp (by injection h)⟩
        · rw [if_neg h1] at h
          by_cases h2 : t.count 46 = 2
          · rw [if_pos h2] at h
            exact .inr ⟨h2, ipNetwork_iff.mp (by injection h)⟩
          · rw [if_neg h2] at h
            cases h
      · rintro (h | ⟨-, t', u', rest', he, ht', hu', hr', h⟩)
        · exact absurd h (hno n)
        · obtain ⟨rfl, rfl⟩ := key he ht' hu' hr'
          rcases h with ⟨h1, h2⟩ | ⟨h1, h2⟩
          · rw [if_pos h1]
            exact congrArg Call.ret (ipNetwork_iff.mpr h2)
          · rw [if_neg (by omega), if_pos h1]
            exact congrArg Call.ret (ipNetwork_iff.mpr h2)
    · have hcc : s.contains 47 = false := by
        simpa using hc
      rw [hcc]
      constructor
      · intro h
        exfalso
        revert h
        simp only [Bool.false_eq_true, if_false]
        split
        · intro h; cases h
        · split <;> intro h <;> cases h
      · rintro (h | ⟨-, t', u', rest', he, ht', hu', hr', h⟩)
        · exact absurd h (hno n)
        · exact absurd (by rw [he]; simp) hc

theorem lacnic_exc {s : Bytes} {x : Exc} (h : lacnicNetwork s = .exc x) : 47 ∉ s ∧ (s.count 46 = 1 ∨ s.count 46 = 2) := by
  unfold lacnicNetwork at h
  cases hs : ipNetwork s with
  | some m => rw [hs] at h; cases h
  | none =>
    rw [hs] at h
    simp only at h
    by_cases hc : (47 : Byte) ∈ s
    · have hcc : s.contains 47 = true := by simpa using hc
      rw [hcc] at h
      simp only [if_true] at h
      split at h
      · cases h
      · split at h <;> cases h
    · refine ⟨hc, ?_⟩
      rw [(no_byte hc).1] at h
      by_cases h1 : s.count 46 = 1
      · exact .inl h1
      · by_cases h2 : s.count 46 = 2
        · exact .inr h2
        · rw [if_neg h1, if_neg h2] at h
          cases h

theorem namesShort_unique {s : Bytes} {m n : Network} (hm : NamesShort s m) (hn : NamesShort s n) : m = n := by
  rw [← lacnic_iff] at hm hn
  rw [hm] at hn
  cases hn
  rfl

theorem namesNet_nil {n : Network} : ¬ NamesNet [] n := by
  intro h
  rw [← ipNetwork_iff] at h
  have : ipNetwork [] = none := by decide +kernel
  rw [this] at h
  cases h

theorem denotes_iff {s : Bytes} {a : Addr} : Denotes s a ↔ ∃ f, parseText s = some (a, f) := parseText_iff.symm

theorem inetRange_iff {v : Bytes} {a b : Addr} : inetRange v = .ret (some (a, b)) ↔ NamesRange v a b := by
  unfold inetRange NamesRange
  by_cases hm : (45 : Byte) ∈ v
  · obtain ⟨t, u, rfl, ht⟩ := cut_byte hm
    have hc : (t ++ 45 :: u).contains 45 = true := by simp
    rw [(split_byte ht).1, (split_byte ht).2, List.drop_succ_cons, List.drop_zero, hc]
    simp only [Bool.not_true, Bool.and_false, Bool.false_eq_true, if_false]
    constructor
    · intro h
      left
      cases h1 : parseText (pyRstrip t) with
      | none => rw [h1] at h; cases h
      | some x =>
        obtain ⟨a', f⟩ := x
        rw [h1] at h
        cases h2 : parseText (pyStrip u) with
        | none => rw [h2] at h; cases h
        | some y =>
          obtain ⟨b', g⟩ := y
          rw [h2] at h
          simp only [Call.ret.injEq, Option.some.injEq, Prod.mk.injEq] at h
          obtain ⟨rfl, rfl⟩ := h
          exact ⟨t, u, _, _, rfl, ht, endTrimmed_iff.mpr rfl, bothTrimmed_iff.mpr rfl, denotes_iff.mpr ⟨f, h1⟩, denotes_iff.mpr ⟨g, h2⟩⟩
    · rintro (⟨t1, u1, t', u', he, h1, h2, h3, h4, h5⟩ | ⟨h, -⟩)
      · have e1 : (t ++ 45 :: u).takeWhile (· ≠ 45) = (t1 ++ 45 :: u1).takeWhile (· ≠ 45) := by rw [he]
        have e2 : ((t ++ 45 :: u).dropWhile (· ≠ 45)).drop 1 = ((t1 ++ 45 :: u1).dropWhile (· ≠ 45)).drop 1 := by rw [he]
        rw [(split_byte ht).1, (split_byte h1).1] at e1
        rw [(split_byte ht).2, (split_byte h1).2, List.drop_succ_cons, List.drop_zero, List.drop_succ_cons, List.drop_zero] at e2
        subst e1 e2
        rw [endTrimmed_iff] at h2
        rw [bothTrimmed_iff] at h3
        obtain ⟨f, h4⟩ := denotes_iff.mp h4
        obtain ⟨g, h5⟩ := denotes_iff.mp h5
        rw [h2, h3, h4, h5]
      · exact absurd hm h
  · have hc : v.contains 45 = false := by simpa using hm
    rw [(no_byte hm).1, (no_byte hm).2, hc]
    constructor
    · intro h
      right
      refine ⟨hm, pyRstrip v, ?_⟩
      cases hs : (pyRstrip v).isEmpty
      · simp only [hs, Bool.not_false, Bool.and_self, if_true] at h
        cases hl : lacnicNetwork (pyRstrip v) with
        | exc x => rw [hl] at h; cases h
        | ret r =>
          rw [hl] at h
          cases r with
          | none => cases h
          | some n =>
            simp only [Call.ret.injEq, Option.some.injEq, Prod.mk.injEq] at h
            exact ⟨n, endTrimmed_iff.mpr rfl, lacnic_iff.mp hl, h.1.symm, h.2.symm⟩
      · simp only [hs, Bool.not_true, Bool.false_and, Bool.false_eq_true, if_false] at h
        have : pyRstrip v = [] := List.isEmpty_iff.mp hs
        rw [this] at h
        have hp : parseText [] = none := by decide +kernel
        rw [hp] at h
        cases h
    · rintro (⟨t1, u1, t', u', he, -⟩ | ⟨-, t, n, h1, h2, rfl, rfl⟩)
      · exact absurd (by rw [he]; simp) hm
      · rw [endTrimmed_iff] at h1
        rw [h1]
        have hne : t.isEmpty = false := by
          cases t with
          | cons => rfl
          | nil =>
            rcases h2 with h2 | ⟨-, t, u, r, h2, -⟩
            · exact absurd h2 namesNet_nil
            · simp at h2
        simp only [hne, Bool.not_false, Bool.and_self, if_true]
        rw [lacnic_iff.mpr h2]

theorem inetRange_exc {v : Bytes} {x : Exc} (h : inetRange v = .exc x) : 45 ∉ v ∧ ∃ t, EndTrimmed v t ∧ 47 ∉ t ∧ (t.count 46 = 1 ∨ t.count 46 = 2) := by
  unfold inetRange at h
  by_cases hm : (45 : Byte) ∈ v
  · have hc : v.contains 45 = true := by simpa using hm
    rw [hc] at h
    simp only [Bool.not_true, Bool.and_false, Bool.false_eq_true, if_false] at h
    split at h
    · cases h
    · split at h <;> cases h
  · have hc : v.contains 45 = false := by simpa using hm
    refine ⟨hm, pyRstrip v, endTrimmed_iff.mpr rfl, ?_⟩
    rw [(no_byte hm).1, (no_byte hm).2, hc] at h
    cases hs : (pyRstrip v).isEmpty
    · simp only [hs, Bool.not_false, Bool.and_self, if_true] at h
      cases hl : lacnicNetwork (pyRstrip v) with
      | exc x => exact lacnic_exc hl
      | ret r =>
        rw [hl] at h
        cases r <;> cases h
    · simp only [hs, Bool.not_true, Bool.false_and, Bool.false_eq_true, if_false] at h
      split at h
      · cases h
      · split at h <;> cases h

theorem namesRange_unique {v : Bytes} {a b a' b' : Addr} (h : NamesRange v a b) (h' : NamesRange v a' b') : a' = a ∧ b' = b := by
  rw [← inetRange_iff] at h h'
  rw [h] at h'
  simp only [Call.ret.injEq, Option.some.injEq, Prod.mk.injEq] at h'
  exact ⟨h'.1.symm, h'.2.symm⟩

/-! ## Names and countries -/

theorem knownCountry_iff {e : WhoisEnv} {v : Bytes} {cc : CStr} : knownCountry e v = some cc ↔ KnownCountry e v cc := by
  unfold knownCountry KnownCountry
  rw [pyUpper_eq]
  show (if v.map upper = ascii "YU" ∨ v.map upper = ascii "ZZ" then none else
      if e.countries.contains (if v.map upper = ascii "UK" then ascii "GB" else v.map upper) then
        some (if v.map upper = ascii "UK" then ascii "GB" else v.map upper) else none) = some cc ↔ _
  by_cases h : v.map upper = ascii "YU" ∨ v.map upper = ascii "ZZ"
  · rw [if_pos h]
    constructor
    · intro h'; cases h'
    · rintro ⟨h1, h2, -⟩
      rcases h with h | h
      · exact absurd h h1
      · exact absurd h h2
  · rw [if_neg h]
    rw [not_or] at h
    by_cases hc : e.countries.contains (if v.map upper = ascii "UK" then ascii "GB" else v.map upper) = true
    · rw [if_pos hc]
      have hm : (if v.map upper = ascii "UK" then ascii "GB" else v.map upper) ∈ e.countries := by simpa using hc
      constructor
      · intro h'
        injection h' with h'
        exact ⟨h.1, h.2, h'.symm, h' ▸ hm⟩
      · rintro ⟨-, -, h', -⟩
        rw [h']
    · rw [if_neg hc]
      constructor
      · intro h'; cases h'
      · rintro ⟨-, -, h1, h2⟩
        rw [h1] at h2
        exact absurd (by simpa using h2) hc

theorem head_digit {s : Bytes} : (s.head?.map isDigit == some true) = true ↔ ∃ d rest, IsDigit d ∧ s = d :: rest := by
  cases s with
  | nil => simp
  | cons c r =>
    constructor
    · intro h
      refine ⟨c, r, (isDigit_iff c).mp ?_, rfl⟩
      simpa using h
    · rintro ⟨d, rest, hd, he⟩
      cases he
      simpa using (isDigit_iff _).mpr hd

theorem span_digits {t u : Bytes} (ht : ∀ c ∈ t, IsDigit c ∨ c = 45) (hu : ∃ r, u = ascii "SLASH" ++ r) :
    (t ++ u).takeWhile (fun c => isDigit c || c == 45) = t ∧ (t ++ u).dropWhile (fun c => isDigit c || c == 45) = u := by
  have hp : ∀ a ∈ t, (isDigit a || a == 45) = true := by
    intro a ha
    rcases ht a ha with h | h
    · rw [(isDigit_iff a).mpr h]; rfl
    · rw [h]; rfl
  obtain ⟨r, rfl⟩ := hu
  constructor
  · rw [List.takeWhile_append_of_pos hp]
    show t ++ List.takeWhile _ ((83 : Byte) :: ([76, 65, 83, 72] ++ r)) = t
    rw [List.takeWhile_cons_of_neg (by decide), List.append_nil]
  · rw [List.dropWhile_append_of_pos hp]
    show List.dropWhile _ ((83 : Byte) :: ([76, 65, 83, 72] ++ r)) = _
    rw [List.dropWhile_cons_of_neg (by decide)]
    rfl

theorem drop_prefix {p s : Bytes} (h : p.isPrefixOf s = true) : s = p ++ s.drop p.length := by
  obtain ⟨r, rfl⟩ := isPrefixOf_iff'.mp h
  rw [List.drop_left]

theorem historic_iff {s : Bytes} : historicName s = true ↔ Historic s := by
  unfold historicName Historic
  simp only [Bool.or_eq_true]
  constructor
  · rintro ((((h | h) | h) | h) | h)
    · obtain ⟨r, hr⟩ := isPrefixOf_iff'.mp h
      exact ⟨r, .inl hr⟩
    · obtain ⟨x, hx, h⟩ := List.any_eq_true.mp h
      obtain ⟨r, hr⟩ := isPrefixOf_iff'.mp h
      refine ⟨r, .inr (.inl ?_)⟩
      simp only [strRirs, List.mem_cons, List.not_mem_nil, or_false] at hx
      rcases hx with rfl | rfl | rfl | rfl
      · exact ⟨"AFRINIC", by simp, hr⟩
      · exact ⟨"ARIN", by simp, hr⟩
      · exact ⟨"LACNIC", by simp, hr⟩
      · exact ⟨"RIPE", by simp, hr⟩
    · rw [Bool.and_eq_true] at h
      obtain ⟨d, rest, hd, he⟩ := head_digit.mp h.2
      refine ⟨rest, .inr (.inr (.inl ⟨d, hd, ?_⟩))⟩
      have := drop_prefix h.1
      rw [he] at this
      exact this
    · obtain ⟨r, hr⟩ := isPrefixOf_iff'.mp h
      exact ⟨r, .inr (.inr (.inr (.inl hr)))⟩
    · rw [Bool.and_eq_true, Bool.and_eq_true, Bool.and_eq_true] at h
      obtain ⟨h1, ⟨h2, h3⟩, h4⟩ := h
      obtain ⟨d, rest, hd, he⟩ := head_digit.mp h4
      refine ⟨rest, .inr (.inr (.inr (.inr ⟨_, d, of_decide_eq_true h2, ?_, hd, ?_⟩)))⟩
      · intro c hc
        have := List.mem_takeWhile_imp hc
        rw [Bool.or_eq_true] at this
        rcases this with h | h
        · exact .inl ((isDigit_iff c).mp h)
        · exact .inr (by simpa using h)
      · have e1 := drop_prefix h1
        have e2 := drop_prefix h3
        rw [he] at e2
        conv => lhs; rw [e1]
        rw [List.append_assoc, List.append_assoc]
        show _ = strStub ++ _
        congr 1
        show _ = _ ++ (strSlash ++ d :: rest)
        rw [← e2, List.takeWhile_append_dropWhile]
  · rintro ⟨rest, h | ⟨r, hr, h⟩ | ⟨d, hd, h⟩ | h | ⟨t, d, h1, h2, h3, h4⟩⟩
    · exact .inl (.inl (.inl (.inl (isPrefixOf_iff'.mpr ⟨rest, h⟩))))
    · refine .inl (.inl (.inl (.inr (List.any_eq_true.mpr ⟨ascii r, ?_, isPrefixOf_iff'.mpr ⟨rest, h⟩⟩))))
      simp only [List.mem_cons, List.not_mem_nil, or_false] at hr
      rcases hr with rfl | rfl | rfl | rfl <;> decide
    · refine .inl (.inl (.inr ?_))
      rw [Bool.and_eq_true]
      refine ⟨isPrefixOf_iff'.mpr ⟨d :: rest, h⟩, head_digit.mpr ⟨d, rest, hd, ?_⟩⟩
      rw [h]
      exact List.drop_left
    · exact .inl (.inr (isPrefixOf_iff'.mpr ⟨rest, h⟩))
    · refine .inr ?_
      have e : s.drop strStub.length = t ++ (ascii "SLASH" ++ d :: rest) := by
        rw [h4, List.append_assoc, List.append_assoc]
        exact List.drop_left
      obtain ⟨g1, g2⟩ := span_digits (u := ascii "SLASH" ++ d :: rest) h2 ⟨_, rfl⟩
      rw [Bool.and_eq_true, Bool.and_eq_true, Bool.and_eq_true]
      simp only [e]
      rw [g1, g2]
      refine ⟨isPrefixOf_iff'.mpr ⟨t ++ (ascii "SLASH" ++ d :: rest), by rw [h4]; simp only [List.append_assoc]; rfl⟩, ⟨decide_eq_true h1, isPrefixOf_iff'.mpr ⟨_, rfl⟩⟩,
        head_digit.mpr ⟨d, rest, h3, List.drop_left⟩⟩

/-! ## AS numbers -/

theorem asnDigits_iff {v d : Bytes} : asnDigits v = some d ↔ AsnText v d := by
  unfold asnDigits AsnText
  constructor
  · intro h
    by_cases hp : v.take 2 = [65, 83] ∨ v.take 2 = [97, 115]
    · rw [if_pos hp] at h
      simp only at h
      cases he : ((v.drop 2).takeWhile isDigit).isEmpty
      · rw [he] at h
        simp only [Bool.false_eq_true, if_false, Option.some.injEq] at h
        subst h
        refine ⟨v.take 2, (v.drop 2).dropWhile isDigit, hp, ?_, ?_, ?_, ?_⟩
        · rw [List.append_assoc, List.takeWhile_append_dropWhile, List.take_append_drop]
        · intro hn
          rw [hn] at he
          cases he
        · exact fun c hc => (isDigit_iff c).mp (List.mem_takeWhile_imp hc)
        · intro c hc hd
          have := List.head?_dropWhile_not isDigit (v.drop 2)
          rw [hc] at this
          exact absurd ((isDigit_iff c).mpr hd) (by simpa using this)
      · rw [he] at h
        cases h
    · rw [if_neg hp] at h
      cases h
  · rintro ⟨p, rest, hp, rfl, hne, hd, hr⟩
    have hlen : p.length = 2 := by rcases hp with rfl | rfl <;> rfl
    have e1 : (p ++ d ++ rest).take 2 = p := by rw [List.append_assoc, ← hlen, List.take_left]
    have e2 : (p ++ d ++ rest).drop 2 = d ++ rest := by rw [List.append_assoc, ← hlen, List.drop_left]
    have e3 : (d ++ rest).takeWhile isDigit = d := by
      rw [List.takeWhile_append_of_pos fun a ha => (isDigit_iff a).mpr (hd a ha)]
      cases rest with
      | nil => simp
      | cons c r =>
        rw [List.takeWhile_cons_of_neg fun hc => hr c rfl ((isDigit_iff c).mp hc), List.append_nil]
    have hp' : p = [65, 83] ∨ p = [97, 115] := hp
    have : d.isEmpty = false := by
      cases d with
      | nil => exact absurd rfl hne
      | cons => rfl
    rw [e1, e2, e3, if_pos hp']
    simp only [this, Bool.false_eq_true, if_false]

/-! ## Statistics -/

theorem cutBar_iff {s x y : Bytes} : cutBar s = some (x, y) ↔ s = x ++ 124 :: y ∧ 124 ∉ x := by
  unfold cutBar
  by_cases h : (124 : Byte) ∈ s
  · obtain ⟨t, d, rfl, ht⟩ := cut_byte h
    rw [if_pos (by simp), (split_byte ht).1, (split_byte ht).2, List.drop_succ_cons, List.drop_zero]
    simp only [Option.some.injEq, Prod.mk.injEq]
    constructor
    · rintro ⟨rfl, rfl⟩
      exact ⟨rfl, ht⟩
    · rintro ⟨he, hx⟩
      have e1 : (t ++ 124 :: d).takeWhile (· ≠ 124) = (x ++ 124 :: y).takeWhile (· ≠ 124) := by rw [he]
      have e2 : ((t ++ 124 :: d).dropWhile (· ≠ 124)).drop 1 = ((x ++ 124 :: y).dropWhile (· ≠ 124)).drop 1 := by rw [he]
      rw [(split_byte ht).1, (split_byte hx).1] at e1
      rw [(split_byte ht).2, (split_byte hx).2, List.drop_succ_cons, List.drop_zero, List.drop_succ_cons, List.drop_zero] at e2
      exact ⟨e1, e2⟩
  · have hc : s.contains 124 = false := by simpa using h
    rw [hc]
    simp only [Bool.false_eq_true, if_false]
    constructor
    · intro h'; cases h'
    · rintro ⟨he, -⟩
      exact absurd (by rw [he]; simp) h

theorem splitBar_ne (s : Bytes) : splitBar s ≠ [] := by
  cases s with
  | nil => simp [splitBar]
  | cons c s =>
    rw [splitBar]
    split
    · simp
    · split <;> simp

theorem splitBar_one {x : Bytes} (h : 124 ∉ x) : splitBar x = [x] := by
  induction x with
  | nil => rfl
  | cons c x ih =>
    have hc : c ≠ 124 := fun he => h (he ▸ List.mem_cons_self)
    rw [splitBar, if_neg hc, ih fun hm => h (List.mem_cons_of_mem _ hm)]

theorem splitBar_cons {x y : Bytes} (h : 124 ∉ x) : splitBar (x ++ 124 :: y) = x :: splitBar y := by
  induction x with
  | nil => exact if_pos rfl
  | cons c x ih =>
    have hc : c ≠ 124 := fun he => h (he ▸ List.mem_cons_self)
    rw [List.cons_append, splitBar, if_neg hc, ih fun hm => h (List.mem_cons_of_mem _ hm)]

/-- Every text is made of what it is split into. -/
inductive Barred : Bytes → List Bytes → Prop
  | one {x : Bytes} (h : 124 ∉ x) : Barred x [x]
  | cons {x y : Bytes} {l : List Bytes} (h : 124 ∉ x) (hr : Barred y l) : Barred (x ++ 124 :: y) (x :: l)

theorem splitBar_barred (s : Bytes) : Barred s (splitBar s) := by
  have : ∀ k (s : Bytes), s.length ≤ k → Barred s (splitBar s) := by
    intro k
    induction k with
    | zero =>
      intro s hs
      cases s with
      | nil => exact .one (by simp)
      | cons => simp at hs
    | succ k ih =>
      intro s hs
      by_cases h : (124 : Byte) ∈ s
      · obtain ⟨t, d, rfl, ht⟩ := cut_byte h
        rw [splitBar_cons ht]
        exact .cons ht (ih d (by simp at hs; omega))
      · rw [splitBar_one h]
        exact .one h
  exact this _ s (Nat.le_refl _)

theorem barred_one {s x : Bytes} (h : Barred s [x]) : s = x ∧ 124 ∉ x := by
  cases h with
  | one h => exact ⟨rfl, h⟩
  | cons h hr => cases hr

theorem barred_cons {s x y : Bytes} {l : List Bytes} (h : Barred s (x :: y :: l)) : ∃ r, s = x ++ 124 :: r ∧ 124 ∉ x ∧ Barred r (y :: l) := by
  cases h with
  | cons h hr => exact ⟨_, rfl, h, hr⟩

theorem statFields_iff {s address number status : Bytes} : statFields s = some (address, number, status) ↔
    ∃ date more, s = address ++ 124 :: number ++ 124 :: date ++ 124 :: status ++ more ∧ 124 ∉ address ∧ 124 ∉ number ∧ 124 ∉ date ∧ 124 ∉ status ∧
      (more = [] ∨ ∃ o, more = 124 :: o ∧ 124 ∉ o) := by
  unfold statFields
  constructor
  · intro h
    have hb := splitBar_barred s
    split at h
    · rename_i a p d st o he
      rw [he] at hb
      obtain ⟨r1, rfl, n1, hb⟩ := barred_cons hb
      obtain ⟨r2, rfl, n2, hb⟩ := barred_cons hb
      obtain ⟨r3, rfl, n3, hb⟩ := barred_cons hb
      obtain ⟨r4, rfl, n4, hb⟩ := barred_cons hb
      obtain ⟨rfl, n5⟩ := barred_one hb
      simp only [Option.some.injEq, Prod.mk.injEq] at h
      obtain ⟨rfl, rfl, rfl⟩ := h
      exact ⟨d, 124 :: r4, by simp, n1, n2, n3, n4, .inr ⟨r4, rfl, n5⟩⟩
    · rename_i a p d st he
      rw [he] at hb
      obtain ⟨r1, rfl, n1, hb⟩ := barred_cons hb
      obtain ⟨r2, rfl, n2, hb⟩ := barred_cons hb
      obtain ⟨r3, rfl, n3, hb⟩ := barred_cons hb
      obtain ⟨rfl, n4⟩ := barred_one hb
      simp only [Option.some.injEq, Prod.mk.injEq] at h
      obtain ⟨rfl, rfl, rfl⟩ := h
      exact ⟨d, [], by simp, n1, n2, n3, n4, .inl rfl⟩
    · cases h
  · rintro ⟨date, more, rfl, n1, n2, n3, n4, rfl | ⟨o, rfl, n5⟩⟩
    · have e : splitBar (address ++ 124 :: number ++ 124 :: date ++ 124 :: status ++ []) = [address, number, date, status] := by
        simp only [List.append_assoc, List.cons_append, List.append_nil]
        rw [splitBar_cons n1, splitBar_cons n2, splitBar_cons n3, splitBar_one n4]
      rw [e]
    · have e : splitBar (address ++ 124 :: number ++ 124 :: date ++ 124 :: status ++ 124 :: o) = [address, number, date, status, o] := by
        simp only [List.append_assoc, List.cons_append]
        rw [splitBar_cons n1, splitBar_cons n2, splitBar_cons n3, splitBar_cons n4, splitBar_one n5]
      rw [e]

/-- A line that is split in the two steps of the program -/
theorem statText_iff {line cc type address number status : Bytes} : StatText line cc type address number status ↔
    ∃ registry rest, splitStat line = some (registry, cc, type, rest) ∧ statFields rest = some (address, number, status) := by
  unfold StatText splitStat
  constructor
  · rintro ⟨registry, date, more, rfl, n0, n1, n2, n3, n4, n5, n6, hm⟩
    refine ⟨registry, address ++ 124 :: number ++ 124 :: date ++ 124 :: status ++ more, ?_, statFields_iff.mpr ⟨date, more, rfl, n3, n4, n5, n6, hm⟩⟩
    simp only [Option.bind_eq_some_iff, Option.map_eq_some_iff]
    exact ⟨(registry, _), cutBar_iff.mpr ⟨by simp only [List.append_assoc, List.cons_append]; rfl, n0⟩, (cc, _), cutBar_iff.mpr ⟨rfl, n1⟩,
      (type, _), cutBar_iff.mpr ⟨rfl, n2⟩, by simp⟩
  · rintro ⟨registry, rest, h1, h2⟩
    obtain ⟨date, more, rfl, n3, n4, n5, n6, hm⟩ := statFields_iff.mp h2
    simp only [Option.bind_eq_some_iff, Option.map_eq_some_iff] at h1
    obtain ⟨⟨x1, x2⟩, e1, ⟨y1, y2⟩, e2, ⟨z1, z2⟩, e3, e4⟩ := h1
    simp only [Prod.mk.injEq] at e4
    obtain ⟨rfl, rfl, rfl, rfl⟩ := e4
    obtain ⟨rfl, n0⟩ := cutBar_iff.mp e1
    obtain ⟨e2, n1⟩ := cutBar_iff.mp e2
    obtain ⟨e3, n2⟩ := cutBar_iff.mp e3
    simp only at e2 e3
    subst e2
    subst e3
    exact ⟨x1, date, more, by simp, n0, n1, n2, n3, n4, n5, n6, hm⟩

end Loc
