import Verif.Lemmas.Enum
import Verif.Props.File
/-
Properties of the AS and country enumerators: C23, C45.
-/
namespace Loc.Props
open Loc Spec

/-! ## C23 -/

/-- Calling `next_as` on a new enumerator until it returns nothing yields each added AS exactly once with its
    name (empty if it has none), in ascending order of the numbers; with a search string exactly those whose
    name contains the text in upper or lower case.  Then the enumerator starts again (its state is 0 again).
    `number` and `name` are arbitrary; `fuel` only bounds the number of calls. -/
theorem as_enumeration {K : Type} {ctz0 : Nat} (h0 : 8 ≤ ctz0) {key1 key2 : Option K} {ops : List (WOp K)} {e : WEnv K}
    {w : Writer K} {f : Bytes} (h : Written ctz0 key1 key2 ops e w f) :
    ∃ db, dbOpen f = .ok db ∧ ∃ l : List AS,
      (∀ fuel, l.length < fuel → drain (nextAs db none) fuel 0 = .ok (l, true, 0)) ∧
      l.Pairwise (fun a b => a.number.toNat < b.number.toNat) ∧
      (∀ number name, (⟨number, name⟩ : AS) ∈ l ↔
        ∃ given, asesOf ops number = some given ∧ name = some (match given with | some s => s | none => [])) ∧
      ∀ s fuel, l.length < fuel → ∃ found : List AS, drain (nextAs db (setString s)) fuel 0 = .ok (found, true, 0) ∧
        found.Sublist l ∧ ∀ a, a ∈ found ↔ a ∈ l ∧ ∃ name, a.name = some name ∧ Occurs s name := by
  obtain ⟨w0, s, sig1, sig2, tail, db, hw0, v, hi, hsort, -⟩ := written_view h0 h
  have hs : w.ases.Pairwise (fun x y => x.number < y.number) := by
    rw [hsort]; exact asListSort_sorted (winv hw0).nodup
  have hlen : (w.ases.map fun a => (⟨a.number, some (a.name.getD [])⟩ : AS)).length = w.ases.length := List.length_map ..
  have hc : db.asCount = (w.ases.map fun a => (⟨a.number, some (a.name.getD [])⟩ : AS)).length := by rw [hlen]; exact v.asCount
  have hl : ∀ (i : Nat) (a : AS), (w.ases.map fun a => (⟨a.number, some (a.name.getD [])⟩ : AS))[i]? = some a →
      fetchAs db i = .ok (some a) := by
    intro i a ha
    rw [List.getElem?_map] at ha
    cases hw : w.ases[i]? with
    | none => rw [hw] at ha; cases ha
    | some b =>
      rw [hw] at ha
      cases ha
      exact v.ases i b hw
  have hd := fun s fuel => drain_as hc hl s _ 0 fuel (List.drop_zero (l := _)).symm
  refine ⟨db, v.opened, _, fun fuel hf => ?_, ?_, ?_, fun s fuel hf => ⟨_, hd _ _ hf, List.filter_sublist, ?_⟩⟩
  · rw [hd none fuel hf]
    simp only [Except.ok.injEq, Prod.mk.injEq, and_true]
    exact List.filter_eq_self.mpr fun _ _ => rfl
  · rw [List.pairwise_map]
    exact hs
  · intro number name
    rw [List.mem_map]
    constructor
    · rintro ⟨a, ha, h⟩
      cases h
      refine ⟨a.name, (hi.ases _ _).mp ha, ?_⟩
      cases a.name <;> rfl
    · rintro ⟨given, hg, rfl⟩
      refine ⟨⟨number, given⟩, (hi.ases _ _).mpr hg, ?_⟩
      cases given <;> rfl
  · intro a
    rw [List.mem_filter]
    refine and_congr_right fun ha => ?_
    obtain ⟨b, -, rfl⟩ := List.mem_map.mp ha
    rw [asMatchString_iff]
    constructor
    · intro ho; exact ⟨_, rfl, ho⟩
    · rintro ⟨_, h, ho⟩; cases h; exact ho

/-- The sample has the ASes 64512 (no name) and 204867 ("L"); searching for "l" finds the second. -/
example : (∃ w f, Written 32 none none demoOps demoEnv w f) ∧ asesOf demoOps 204867 = some (some [76]) ∧ asesOf demoOps 64512 = some none ∧
    Occurs [108] [76] ∧ ¬ Occurs [108] [] :=
  ⟨demo_written, rfl, rfl, ⟨[], [76], [], rfl, rfl⟩, by
    rintro ⟨p, m, q, h1, h2⟩
    obtain ⟨h3, h4⟩ := List.append_eq_nil_iff.mp h1.symm
    obtain ⟨rfl, rfl⟩ := List.append_eq_nil_iff.mp h3
    cases h2⟩

/-! ## C45 -/

/-- Calling `next_country` on a new enumerator until it returns nothing yields each added country exactly once
    with its name (empty if it has none), in the order of the first additions; a country that has a continent
    code keeps it.  Then the enumerator starts again.  Missing: the continent code of countries without one
    (see `country_violated_continent`). -/
theorem country_enumeration_partial {K : Type} {ctz0 : Nat} (h0 : 8 ≤ ctz0) {key1 key2 : Option K} {ops : List (WOp K)} {e : WEnv K}
    {w : Writer K} {f : Bytes} (h : Written ctz0 key1 key2 ops e w f) :
    ∃ db, dbOpen f = .ok db ∧ ∃ l : List Country,
      (∀ fuel, l.length < fuel → drain (nextCountry db) fuel 0 = .ok (l, true, 0)) ∧
      (l.map countryGetCode).Nodup ∧ (l.map countryGetCode).Sublist (codesAdded ops) ∧
      (∀ code, code ∈ l.map countryGetCode ↔ countriesOf ops code ≠ none) ∧
      (∀ c ∈ l, ∃ continent name, countriesOf ops (countryGetCode c) = some (continent, name) ∧
        c.name = some (match name with | some s => s | none => []) ∧ (continent ≠ none → countryContinent c = continent)) := by
  obtain ⟨w0, s, sig1, sig2, tail, db, hw0, v, hi, -⟩ := written_view h0 h
  have hlk := leaked_length e.junkContinent w.countries
  have hc : db.countryCount = ((leaked e.junkContinent w.countries).map storedCountry).length := by
    rw [List.length_map, hlk]; exact v.countryCount
  have hl : ∀ (i : Nat) (c : Country), ((leaked e.junkContinent w.countries).map storedCountry)[i]? = some c →
      fetchCountry db i = .ok (some c) := by
    intro i c hc
    rw [List.getElem?_map] at hc
    cases hw : (leaked e.junkContinent w.countries)[i]? with
    | none => rw [hw] at hc; cases hc
    | some b =>
      rw [hw] at hc
      cases hc
      exact v.countries i b hw
  have hcodes : ((leaked e.junkContinent w.countries).map storedCountry).map countryGetCode = w.countries.map countryGetCode := by
    apply List.ext_getElem (by simp [hlk])
    intro i h1 h2
    simp only [List.length_map] at h1 h2
    simp only [List.getElem_map]
    obtain ⟨d, d1, d2, d3, -, -⟩ := leaked_getElem (List.getElem?_eq_getElem h1)
    rw [List.getElem?_eq_getElem h2] at d1
    cases d1
    unfold countryGetCode storedCountry
    simp only [d2, d3]
  refine ⟨db, v.opened, _, fun fuel hf => drain_countries hc hl _ 0 fuel (List.drop_zero (l := _)).symm hf, ?_, ?_, ?_, ?_⟩
  · rw [hcodes]; exact hi.cnodup
  · rw [hcodes]; exact hi.csub
  · intro code
    rw [hcodes, List.mem_map]
    constructor
    · rintro ⟨c, hc, rfl⟩ hn
      have := (hi.countries _ _ _).mp ⟨c, hc, rfl, rfl, rfl⟩
      rw [hn] at this
      cases this
    · intro hn
      cases ho : countriesOf ops code with
      | none => exact absurd ho hn
      | some r =>
        obtain ⟨c, hc, hk, -⟩ := (hi.countries _ _ _).mpr ho
        exact ⟨c, hc, hk⟩
  · intro c hc
    obtain ⟨d, hd, rfl⟩ := List.mem_map.mp hc
    obtain ⟨cont, name, g1, g2, g3, g4, -⟩ := country_view v hi hd
    refine ⟨cont, name, by rw [g2]; exact g1, ?_, g4⟩
    rw [g3]
    cases name <;> rfl

/-- In the sample: Austria, Germany and Japan, in this order. -/
example : (∃ w f, Written 32 none none demoOps demoEnv w f) ∧ codesAdded demoOps = [[65, 84], [68, 69], [74, 80]] := ⟨demo_written, by decide⟩

end Loc.Props
