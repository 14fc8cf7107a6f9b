import Verif.Model.Whois
/-
Lemmas about `ipaddress.summarize_address_range`: the networks are the largest blocks in the range.
-/
namespace Loc

/-- `v`, …, `v + 2 ^ k - 1` is a block of addresses inside of `lo`, …, `hi`. -/
structure InRange (bits lo hi v k : Nat) : Prop where
  le : k ≤ bits
  aligned : 2 ^ k ∣ v
  lower : lo ≤ v
  upper : v + 2 ^ k ≤ hi + 1

/-- … and there is no larger one around it. -/
def MaxInRange (bits lo hi v k : Nat) : Prop :=
  InRange bits lo hi v k ∧ ∀ v' k', InRange bits lo hi v' k' → v' ≤ v → v + 2 ^ k ≤ v' + 2 ^ k' → k' ≤ k

/-- Blocks that share an address are nested. -/
theorem blocks_nested {v k v' k' x : Nat} (h : 2 ^ k ∣ v) (h' : 2 ^ k' ∣ v') (hk : k ≤ k') (h1 : v ≤ x) (h2 : x < v + 2 ^ k)
    (h3 : v' ≤ x) (h4 : x < v' + 2 ^ k') : v' ≤ v ∧ v + 2 ^ k ≤ v' + 2 ^ k' := by
  obtain ⟨q, rfl⟩ := h
  have hd : 2 ^ k ∣ v' := Nat.dvd_trans (Nat.pow_dvd_pow 2 hk) h'
  have hd' : 2 ^ k ∣ v' + 2 ^ k' := (Nat.dvd_add_iff_right hd).mp (Nat.pow_dvd_pow 2 hk)
  obtain ⟨r, hr⟩ := hd
  obtain ⟨s, hs⟩ := hd'
  have hp := Nat.two_pow_pos k
  rw [hs] at h4 ⊢
  subst hr
  have e1 : r ≤ q := by
    refine Nat.le_of_lt_succ ?_
    have : 2 ^ k * r < 2 ^ k * (q + 1) := by rw [Nat.mul_succ]; omega
    exact Nat.lt_of_mul_lt_mul_left this
  have e2 : q + 1 ≤ s := by
    have : 2 ^ k * q < 2 ^ k * s := by omega
    exact Nat.lt_of_mul_lt_mul_left this
  refine ⟨Nat.mul_le_mul_left _ e1, ?_⟩
  have := Nat.mul_le_mul_left (2 ^ k) e2
  rw [Nat.mul_succ] at this
  exact this

theorem trailing_spec : ∀ (bits v : Nat), pyTrailing bits v ≤ bits ∧ 2 ^ pyTrailing bits v ∣ v ∧
    ∀ k, k ≤ bits → 2 ^ k ∣ v → k ≤ pyTrailing bits v := by
  intro bits
  induction bits with
  | zero =>
    intro v
    refine ⟨Nat.le_refl _, ?_, fun k hk _ => hk⟩
    show 2 ^ 0 ∣ v
    rw [Nat.pow_zero]
    exact Nat.one_dvd v
  | succ bits ih =>
    intro v
    unfold pyTrailing
    by_cases h : v % 2 = 1
    · rw [if_pos h]
      refine ⟨Nat.zero_le _, by rw [Nat.pow_zero]; exact Nat.one_dvd v, fun k _ hd => ?_⟩
      cases k with
      | zero => exact Nat.le_refl _
      | succ k =>
        exfalso
        have : 2 ∣ v := (Nat.dvd_trans (by rw [Nat.pow_succ]; exact Nat.dvd_mul_left _ _) hd)
        omega
    · rw [if_neg h]
      obtain ⟨h1, h2, h3⟩ := ih (v / 2)
      have hv : v = v / 2 * 2 := by omega
      refine ⟨by omega, ?_, fun k hk hd => ?_⟩
      · rw [Nat.pow_succ]
        rw [hv]
        rw [Nat.mul_div_cancel _ (by decide : 0 < 2)]
        exact Nat.mul_dvd_mul_right h2 2
      · cases k with
        | zero => exact Nat.zero_le _
        | succ k =>
          have : 2 ^ k ∣ v / 2 := by
            obtain ⟨c, hc⟩ := hd
            refine ⟨c, ?_⟩
            have e : v = 2 * (2 ^ k * c) := by rw [hc, Nat.pow_succ]; ac_rfl
            omega
          have := h3 k (by omega) this
          omega

theorem log2_max {m : Nat} (hm : m ≠ 0) : 2 ^ m.log2 ≤ m ∧ ∀ k, 2 ^ k ≤ m → k ≤ m.log2 :=
  ⟨Nat.log2_self_le hm, fun _ hk => (Nat.le_log2 hm).mpr hk⟩

/-- The first block that is cut off is the largest one there. -/
theorem first_block {bits lo hi : Nat} (h : lo ≤ hi) : InRange bits lo hi lo (min (pyTrailing bits lo) (hi - lo + 1).log2) ∧
    ∀ k, InRange bits lo hi lo k → k ≤ min (pyTrailing bits lo) (hi - lo + 1).log2 := by
  obtain ⟨h1, h2, h3⟩ := trailing_spec bits lo
  obtain ⟨h4, h5⟩ := log2_max (m := hi - lo + 1) (by omega)
  have e1 := Nat.min_le_left (pyTrailing bits lo) (hi - lo + 1).log2
  have e2 := Nat.min_le_right (pyTrailing bits lo) (hi - lo + 1).log2
  constructor
  · refine ⟨by omega, Nat.dvd_trans (Nat.pow_dvd_pow 2 e1) h2, Nat.le_refl _, ?_⟩
    have := Nat.pow_le_pow_right (n := 2) (by decide) e2
    omega
  · intro k hk
    refine Nat.le_min.mpr ⟨h3 k hk.le hk.aligned, h5 k ?_⟩
    have := hk.upper
    omega

theorem pySummarize_cons {bits lo hi : Nat} (h : lo ≤ hi) : pySummarize bits lo hi =
    (lo, bits - min (pyTrailing bits lo) (hi - lo + 1).log2) :: pySummarize bits (lo + 2 ^ min (pyTrailing bits lo) (hi - lo + 1).log2) hi := by
  rw [pySummarize, if_pos h]

theorem pySummarize_nil {bits lo hi : Nat} (h : ¬ lo ≤ hi) : pySummarize bits lo hi = [] := by
  rw [pySummarize, if_neg h]

/-- Going on behind the first block, the largest blocks stay the same. -/
theorem max_step {bits lo hi v k : Nat} (h : lo ≤ hi) {w : Nat} (hw : w = min (pyTrailing bits lo) (hi - lo + 1).log2) :
    MaxInRange bits lo hi v k ↔ (v = lo ∧ k = w) ∨ MaxInRange bits (lo + 2 ^ w) hi v k := by
  obtain ⟨f1, f2⟩ := first_block (bits := bits) h
  rw [← hw] at f1 f2
  have hpos : ∀ k : Nat, 0 < 2 ^ k := Nat.two_pow_pos
  -- a block that shares an address with the first one lies inside of it
  have key : ∀ {v' k'}, InRange bits lo hi v' k' → v' < lo + 2 ^ w → k' ≤ w ∧ v' + 2 ^ k' ≤ lo + 2 ^ w := by
    intro v' k' g hlt
    by_cases hkw : k' ≤ w
    · exact ⟨hkw, (blocks_nested g.aligned f1.aligned hkw (Nat.le_refl _) (by have := hpos k'; omega) g.lower hlt).2⟩
    · exfalso
      have hn := (blocks_nested f1.aligned g.aligned (by omega) (x := v') g.lower hlt (Nat.le_refl _) (by have := hpos k'; omega)).1
      have : v' = lo := by have := g.lower; omega
      subst this
      exact hkw (f2 k' g)
  constructor
  · rintro ⟨g, gm⟩
    by_cases hlt : v < lo + 2 ^ w
    · left
      obtain ⟨k1, k2⟩ := key g hlt
      have := gm lo w f1 g.lower k2
      have hkw : k = w := by omega
      subst hkw
      exact ⟨by have := g.lower; omega, rfl⟩
    · refine .inr ⟨⟨g.le, g.aligned, by omega, g.upper⟩, fun v' k' g' => gm v' k' ⟨g'.le, g'.aligned, ?_, g'.upper⟩⟩
      have := g'.lower
      have := hpos w
      omega
  · rintro (⟨rfl, rfl⟩ | ⟨g, gm⟩)
    · refine ⟨f1, fun v' k' g' hle _ => ?_⟩
      have : v' = v := by have := g'.lower; omega
      subst this
      exact f2 k' g'
    · have glo := g.lower
      refine ⟨⟨g.le, g.aligned, by have := hpos w; omega, g.upper⟩, fun v' k' g' hle hge => ?_⟩
      by_cases hlt : v' < lo + 2 ^ w
      · have := (key g' hlt).2
        have := hpos k
        omega
      · exact gm v' k' ⟨g'.le, g'.aligned, by omega, g'.upper⟩ hle hge

/-- The pieces of a range are the largest blocks in it. -/
theorem summarize_max (bits hi : Nat) : ∀ (d lo : Nat), hi + 1 - lo ≤ d → ∀ v p, ((v, p) ∈ pySummarize bits lo hi ↔ ∃ k, p = bits - k ∧ MaxInRange bits lo hi v k) := by
  intro d
  induction d with
  | zero =>
    intro lo hd v p
    rw [pySummarize_nil (by omega)]
    constructor
    · intro h; cases h
    · rintro ⟨k, -, g, -⟩
      have := g.lower
      have := g.upper
      have := Nat.two_pow_pos k
      omega
  | succ d ih =>
    intro lo hd v p
    by_cases h : lo ≤ hi
    · rw [pySummarize_cons h, List.mem_cons, ih _ (by have := Nat.two_pow_pos (min (pyTrailing bits lo) (hi - lo + 1).log2); omega)]
      constructor
      · rintro (e | ⟨k, e, g⟩)
        · cases e
          exact ⟨_, rfl, (max_step h rfl).mpr (.inl ⟨rfl, rfl⟩)⟩
        · exact ⟨k, e, (max_step h rfl).mpr (.inr g)⟩
      · rintro ⟨k, rfl, g⟩
        rcases (max_step h rfl).mp g with ⟨rfl, rfl⟩ | g
        · exact .inl rfl
        · exact .inr ⟨k, rfl, g⟩
    · rw [pySummarize_nil h]
      constructor
      · intro h; cases h
      · rintro ⟨k, -, g, -⟩
        have := g.lower
        have := g.upper
        have := Nat.two_pow_pos k
        omega

/-- Every address of the range is in one of the pieces. -/
theorem summarize_covers (bits hi : Nat) : ∀ (d lo : Nat), hi + 1 - lo ≤ d → ∀ x, lo ≤ x → x ≤ hi →
    ∃ v k, (v, bits - k) ∈ pySummarize bits lo hi ∧ k ≤ bits ∧ v ≤ x ∧ x < v + 2 ^ k := by
  intro d
  induction d with
  | zero => intro lo hd x h1 h2; omega
  | succ d ih =>
    intro lo hd x h1 h2
    have h : lo ≤ hi := Nat.le_trans h1 h2
    obtain ⟨f1, -⟩ := first_block (bits := bits) h
    rw [pySummarize_cons h]
    by_cases hx : x < lo + 2 ^ min (pyTrailing bits lo) (hi - lo + 1).log2
    · exact ⟨lo, _, List.mem_cons_self, f1.le, h1, hx⟩
    · obtain ⟨v, k, g1, g2⟩ := ih (lo + 2 ^ min (pyTrailing bits lo) (hi - lo + 1).log2)
        (by have := Nat.two_pow_pos (min (pyTrailing bits lo) (hi - lo + 1).log2); omega) x (by omega) h2
      exact ⟨v, k, List.mem_cons_of_mem _ g1, g2⟩

/-- The pieces are ascending and do not overlap. -/
theorem summarize_sorted (bits hi : Nat) : ∀ (d lo : Nat), hi + 1 - lo ≤ d →
    (pySummarize bits lo hi).Pairwise fun x y => x.1 + 2 ^ (bits - x.2) ≤ y.1 := by
  intro d
  induction d with
  | zero =>
    intro lo hd
    rw [pySummarize_nil (by omega)]
    exact List.Pairwise.nil
  | succ d ih =>
    intro lo hd
    by_cases h : lo ≤ hi
    · have hpos := Nat.two_pow_pos (min (pyTrailing bits lo) (hi - lo + 1).log2)
      obtain ⟨f1, -⟩ := first_block (bits := bits) h
      rw [pySummarize_cons h, List.pairwise_cons]
      refine ⟨fun y hy => ?_, ih _ (by omega)⟩
      obtain ⟨k, -, g, -⟩ := (summarize_max bits hi d _ (by omega) y.1 y.2).mp hy
      have := g.lower
      have e : bits - (bits - min (pyTrailing bits lo) (hi - lo + 1).log2) = min (pyTrailing bits lo) (hi - lo + 1).log2 := by
        have := f1.le; omega
      simp only [e]
      exact this
    · rw [pySummarize_nil h]
      exact List.Pairwise.nil

end Loc
