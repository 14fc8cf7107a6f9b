import Verif.Lemmas.ExcludeOdd
import Verif.Props.Network
/-
C07: When excluding a list fails.
-/
namespace Loc.Props
open Loc Loc.Spec

/-- Excluding an ascending list of networks fails exactly if one of them lies strictly inside such that an odd block has to be
    cut, whatever else is on the list. -/
theorem exclude_list_fails_iff {n : Network} (hn : Block n) (hc : CountryOk n) {list : NetList} (hasc : Ascending list) (hbl : ∀ s ∈ list, Block s)
    (fuel : Nat) (hf : 128 * list.length < fuel) :
    (∃ e, excludeList fuel n list = .error e) ↔ ∃ s ∈ list, StrictlyInside s n ∧ CutsOddBlock n s := by
  constructor
  · rintro ⟨e, he⟩
    by_contra hne
    by_cases hex : ∃ s ∈ list, StrictlyInside s n
    · obtain ⟨r, hr, -⟩ := exclude_list_exact_partial hn hc hasc hbl hex (fun s hs hi ho => hne ⟨s, hs, hi, ho⟩) fuel hf
      rw [hr] at he; cases he
    · rw [exclude_list_no_subnet hn hbl hex fuel (by omega)] at he
      cases he
  · rintro ⟨s, hs, hi, ho⟩
    have hp := (inside_iff_path (hbl s hs) hn).mp hi.1
    exact ⟨_, excludeList_stuck hn hc hbl ⟨s, hs, hp, fun h => (splittable_iff hn (hbl s hs) hp).mp h ho⟩ fuel⟩

/-- Both sides occur: ::1:0:0:0/96 inside of ::/79, and 10.1.0.0/16 inside of 10.0.0.0/8. -/
example : (StrictlyInside netZ96 netZ79 ∧ CutsOddBlock netZ79 netZ96) ∧ (∃ r, excludeList 129 net10_8 [net10_1_16] = .ok r) := by
  constructor
  · exact ⟨exclude_violated.2.2.1, by decide⟩
  · cases h : excludeList 129 net10_8 [net10_1_16] with
    | ok r => exact ⟨r, rfl⟩
    | error e =>
      obtain ⟨s, hs, -, ho⟩ := (exclude_list_fails_iff (n := net10_8) (by decide) (by decide) (list := [net10_1_16])
        (List.pairwise_singleton ..) (by decide) 129 (by decide)).mp ⟨e, h⟩
      rw [List.mem_singleton] at hs
      subst hs
      exact absurd ho (by decide)

end Loc.Props
