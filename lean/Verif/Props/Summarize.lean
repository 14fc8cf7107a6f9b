import Verif.Lemmas.Summarize
import Verif.Props.NetworkList
/-
C30: `loc_network_list_summarize` covers at least the range, and which ranges it covers exactly.
-/
namespace Loc.Props
open Loc Loc.Spec

/-- C30: a range that mixes the families or does not have first < last is rejected.  In particular
    the range of a single address is rejected. -/
theorem summarize_rejects (fuel : Nat) (first last : Addr) (list : NetList) (h : ¬ (IsV4 first ↔ IsV4 last) ∨ value last ≤ value first) :
    listSummarize fuel first last list = .error (.err EINVAL) := by
  unfold listSummarize
  by_cases hf : addrFamily first = addrFamily last
  · rw [if_neg (not_not_intro hf), if_pos]
    rcases h with h | h
    · exact absurd (family_iff.mp hf) h
    · exact addrCmp_nonneg.mpr h
  · rw [if_pos hf]

/-- C30: what the summary of a range inside one half of a family consists of: the smallest CIDR
    block that contains both ends. -/
theorem summarize_same_half (fuel : Nat) (hfuel : 3 ≤ fuel) {first last : Addr} (hf : IsV4 first ↔ IsV4 last) (hlt : value first < value last)
    (hh : ¬ AcrossMiddle first last) {list : NetList} (ha : Ascending list) (hl : ∀ m ∈ list, Block m) :
    ∃ n l', listSummarize fuel first last list = .ok l' ∧ SmallestBlock first last n ∧ Ascending l' ∧
      (∀ m ∈ l', m ∈ list ∨ m = n) ∧ (∀ x, Covers l' x ↔ Covers list x ∨ Contains n x) := by
  obtain ⟨n, l', h1, h2, h3, h4, h5, -, -⟩ := summarize_one hf (Nat.le_of_lt hlt) hh ha hl (fuel - 2)
  refine ⟨n, l', ?_, h2, h3, h5, h4⟩
  unfold listSummarize
  rw [if_neg (not_not_intro (family_iff.mpr hf)), if_neg (by have := mt addrCmp_nonneg.mp (Nat.not_le_of_lt hlt); exact this)]
  rwa [show fuel - 2 + 2 = fuel by omega] at h1

/-- C30: what the summary of a range that reaches from the lower into the upper half of a family
    consists of: the whole lower half and the smallest block that contains the first address of the
    upper half and the end of the range. -/
theorem summarize_across (fuel : Nat) (hfuel : 3 ≤ fuel) {first last : Addr} (hf : IsV4 first ↔ IsV4 last)
    (hh : AcrossMiddle first last) {list : NetList} (ha : Ascending list) (hl : ∀ m ∈ list, Block m) :
    ∃ n1 n2 mid l', listSummarize fuel first last list = .ok l' ∧ Block n1 ∧ value n1.first = familyFirst first ∧
      value n1.last + 1 = familyMiddle first ∧ value mid = familyMiddle first ∧ SmallestBlock mid last n2 ∧
      value n2.first = familyMiddle first ∧ Ascending l' ∧ (∀ m ∈ l', m ∈ list ∨ m = n1 ∨ m = n2) ∧
      (∀ x, Covers l' x ↔ Covers list x ∨ Contains n1 x ∨ Contains n2 x) := by
  obtain ⟨n1, n2, mid, l', h1, h2, h3, h4, h5, h6, h7, h8, h9, h10, -⟩ := summarize_two hf hh ha hl (fuel - 3)
  have hlt : value first < value last := by unfold AcrossMiddle at hh; omega
  refine ⟨n1, n2, mid, l', ?_, h2, h3, h4, h5, h6, h7, h8, h10, h9⟩
  unfold listSummarize
  rw [if_neg (not_not_intro (family_iff.mpr hf)), if_neg (by have := mt addrCmp_nonneg.mp (Nat.not_le_of_lt hlt); exact this)]
  rwa [show fuel - 3 + 3 = fuel by omega] at h1

/-- C30: the half of the property that always holds.  For every range of one family the function
    succeeds, the list stays sorted and free of duplicates, keeps covering what it covered, and
    covers the whole range. -/
theorem range_summary_covers_partial (fuel : Nat) (hfuel : 3 ≤ fuel) {first last : Addr} (hf : IsV4 first ↔ IsV4 last) (hlt : value first < value last)
    {list : NetList} (ha : Ascending list) (hl : ∀ m ∈ list, Block m) :
    ∃ l', listSummarize fuel first last list = .ok l' ∧ Ascending l' ∧ (∀ m ∈ l', Block m) ∧
      (∀ x, value first ≤ value x → value x ≤ value last → Covers l' x) ∧ (∀ x, Covers list x → Covers l' x) := by
  by_cases hh : AcrossMiddle first last
  · obtain ⟨n1, n2, mid, l', h1, h2, h3, h4, h5, h6, h7, h8, h9, h10⟩ := summarize_across fuel hfuel hf hh ha hl
    refine ⟨l', h1, h8, ?_, ?_, fun x hx => (h10 x).mpr (.inl hx)⟩
    · intro m hm
      rcases h9 m hm with h | rfl | rfl
      exacts [hl m h, h2, h6.1]
    · intro x hx1 hx2
      rw [h10]
      by_cases hm : value x < familyMiddle first
      · refine .inr (.inl ⟨?_, by omega⟩)
        rw [h3]
        refine Nat.le_trans ?_ hx1
        unfold familyFirst
        split
        · rename_i h
          unfold IsV4 at h
          simp only [Nat.reducePow] at h
          omega
        · exact Nat.zero_le _
      · exact .inr (.inr ⟨by omega, Nat.le_trans hx2 h6.2.2.1.2⟩)
  · obtain ⟨n, l', h1, h2, h3, h4, h5⟩ := summarize_same_half fuel hfuel hf hlt hh ha hl
    refine ⟨l', h1, h3, ?_, fun x hx1 hx2 => (h5 x).mpr (.inr ⟨Nat.le_trans h2.2.1.1 hx1, Nat.le_trans hx2 h2.2.2.1.2⟩),
      fun x hx => (h5 x).mpr (.inl hx)⟩
    intro m hm
    rcases h4 m hm with h | rfl
    exacts [hl m h, h2.1]

/-- C30: the ranges whose summary is exact, written into an empty list: those that are a CIDR block,
    and those that consist of the lower half of a family and a block at the start of the upper half. -/
theorem range_summary_exact_iff (fuel : Nat) (hfuel : 3 ≤ fuel) {first last : Addr} (hf : IsV4 first ↔ IsV4 last) (hlt : value first < value last)
    {l' : NetList} (h : listSummarize fuel first last [] = .ok l') :
    (∀ x, Covers l' x ↔ value first ≤ value x ∧ value x ≤ value last) ↔
      ((¬ AcrossMiddle first last ∧ BlockRange (value first) (value last)) ∨
       (AcrossMiddle first last ∧ value first = familyFirst first ∧ BlockRange (familyMiddle first) (value last))) := by
  have hnil : ∀ x, ¬ Covers ([] : List Network) x := by rintro x ⟨n, hn, -⟩; cases hn
  by_cases hh : AcrossMiddle first last
  · obtain ⟨n1, n2, mid, l, h1, h2, h3, h4, h5, h6, h7, h8, h9, h10⟩ := summarize_across fuel hfuel hf hh (list := []) .nil (by simp)
    rw [h] at h1
    cases h1
    simp only [hnil, false_or] at h10
    have hlast := h6.2.2.1.2
    have hmid := hh.2
    have hfl : familyFirst first ≤ value first := by
      unfold familyFirst
      split
      · rename_i h
        unfold IsV4 at h
        simp only [Nat.reducePow] at h
        omega
      · exact Nat.zero_le _
    have b1 := h2.last_eq
    have b2 := h6.1.last_eq
    constructor
    · intro he
      refine .inr ⟨hh, ?_, n2, h6.1, h7, ?_⟩
      · have := ((he n1.first).mp ((h10 _).mpr (.inl ⟨Nat.le_refl _, by omega⟩))).1
        omega
      · have := ((he n2.last).mp ((h10 _).mpr (.inr ⟨by omega, Nat.le_refl _⟩))).2
        omega
    · rintro (⟨hn, -⟩ | ⟨-, hfirst, m, m1, m2, m3⟩)
      · exact absurd hh hn
      · have hin := h6.2.2.2 m m1 ⟨by omega, by omega⟩ ⟨by omega, by omega⟩
        have hr := inside_range h6.1 hin
        intro x
        rw [h10]
        unfold Contains
        omega
  · obtain ⟨n, l, h1, h2, h3, h4, h5⟩ := summarize_same_half fuel hfuel hf hlt hh (list := []) .nil (by simp)
    rw [h] at h1
    cases h1
    simp only [hnil, false_or] at h5
    have hb := h2.1.last_eq
    have h6 := h2.2.1.1
    have h7 := h2.2.2.1.2
    constructor
    · intro he
      refine .inl ⟨hh, n, h2.1, ?_, ?_⟩
      · have := ((he n.first).mp ((h5 _).mpr ⟨Nat.le_refl _, by omega⟩)).1
        omega
      · have := ((he n.last).mp ((h5 _).mpr ⟨by omega, Nat.le_refl _⟩)).2
        omega
    · rintro (⟨-, m, m1, m2, m3⟩ | ⟨hn, -⟩)
      · have hin := h2.2.2.2 m m1 ⟨by omega, by omega⟩ ⟨by omega, by omega⟩
        have hr := inside_range h2.1 hin
        intro x
        rw [h5]
        unfold Contains
        omega
      · exact absurd hn hh

/-- 10.0.0.0-10.255.255.255 is a block; 0.0.0.0-191.255.255.255 is the lower half and a block. -/
example : ((listSummarize 3 (ip4 10 0 0 0) (ip4 10 255 255 255) []).toOption.map (·.map fun n => (n.first, n.pfx))) =
      some [(ip4 10 0 0 0, 104)] ∧
    AcrossMiddle (ip4 0 0 0 0) (ip4 191 255 255 255) ∧ value (ip4 0 0 0 0) = familyFirst (ip4 0 0 0 0) ∧
    ((listSummarize 3 (ip4 0 0 0 0) (ip4 191 255 255 255) []).toOption.map (·.map fun n => (n.first, n.pfx))) =
      some [(ip4 0 0 0 0, 97), (ip4 128 0 0 0, 98)] := by decide +kernel

/-- C30 violated: the summary of 10.0.0.1-10.0.0.2 is 10.0.0.0/30, which contains the addresses
    10.0.0.0 and 10.0.0.3 too. -/
theorem range_summary_violated : ∃ first last x l', value first < value last ∧ (IsV4 first ↔ IsV4 last) ∧
    listSummarize 3 first last [] = .ok l' ∧ Covers l' x ∧ value last < value x := by
  refine ⟨ip4 10 0 0 1, ip4 10 0 0 2, ip4 10 0 0 3, [⟨.inet, ip4 10 0 0 0, ip4 10 0 0 3, 126, 0, 0, 0, 0⟩], by decide +kernel, by decide +kernel, by decide +kernel,
    ⟨_, List.mem_cons_self, ?_⟩, by decide +kernel⟩
  unfold Contains
  decide +kernel

/-- C30 violated: the range from an address to itself is an error. -/
theorem single_address_rejected (fuel : Nat) (a : Addr) (list : NetList) : listSummarize fuel a a list = .error (.err EINVAL) :=
  summarize_rejects fuel a a list (.inr (Nat.le_refl _))

end Loc.Props
