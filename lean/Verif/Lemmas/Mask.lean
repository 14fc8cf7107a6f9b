import Verif.Lemmas.Address
/-
Helper lemmas: prefix masks, IPv4-mapped addresses, arithmetic of addresses.
-/
namespace Loc
open Spec

/-! ### the prefix mask -/

theorem oct_bitmaskLoop (fuel : Nat) : ∀ (m : Addr) (j i : Nat), i ≤ 8 * fuel → j + fuel ≤ 16 →
    ∀ k, k < 16 → oct (bitmaskLoop m j i fuel) k =
      if k < j ∨ i ≤ 8 * (k - j) then oct m k
      else if i - 8 * (k - j) ≥ 8 then 0xff
      else (0xff : Byte) <<< (8 - (i - 8 * (k - j))) := by
  induction fuel with
  | zero => intro m j i hi hj k hk; simp [bitmaskLoop]; omega
  | succ fuel ih =>
    intro m j i hi hj k hk
    simp only [bitmaskLoop]
    by_cases hpos : i > 0
    · rw [if_pos hpos]
      by_cases h8 : i ≥ 8
      · rw [if_pos h8, ih _ _ _ (by omega) (by omega) k hk, oct_setOct _ _ _ _ (by omega)]
        by_cases hkj : k = j
        · subst hkj
          have h1 : ¬ (k < k ∨ i ≤ 8 * (k - k)) := by omega
          rw [if_pos (by omega), if_pos rfl, if_neg h1, if_pos (by omega)]
        · by_cases hlt : k < j
          · rw [if_pos (by omega), if_neg (by omega), if_pos (by omega)]
          · have e : i - 8 - 8 * (k - (j + 1)) = i - 8 * (k - j) := by omega
            by_cases hle : i ≤ 8 * (k - j)
            · rw [if_pos (by omega), if_neg (by omega), if_pos (by omega)]
            · rw [e, if_neg (by omega : ¬ (k < j + 1 ∨ i - 8 ≤ 8 * (k - (j + 1)))),
                if_neg (by omega : ¬ (k < j ∨ i ≤ 8 * (k - j)))]
      · rw [if_neg h8, ih _ _ _ (by omega) (by omega) k hk, oct_setOct _ _ _ _ (by omega)]
        by_cases hkj : k = j
        · subst hkj
          rw [if_pos (by omega), if_pos rfl, if_neg (by omega), if_neg (by omega)]
          congr 1
          omega
        · rw [if_pos (by omega), if_neg (by omega), if_pos (by omega)]
    · rw [if_neg hpos, if_pos (by omega)]

theorem oct_replicate_zero (k : Nat) : oct (Vector.replicate 16 0) k = 0 := by
  unfold oct; split <;> simp

theorem ff_shift_getLsbD : ∀ (s j : Fin 8), ((0xff : BitVec 8) <<< s.val).getLsbD j.val = decide (s.val ≤ j.val) := by
  decide

theorem getBit_mask (p i : Nat) (hp : p ≤ 128) (hi : i < 128) :
    getBit (prefixToBitmask p) i = decide (i < p) := by
  rw [getBit_eq_getLsbD, prefixToBitmask, oct_bitmaskLoop 16 _ _ _ (by omega) (by omega) _ (by omega),
    oct_replicate_zero]
  by_cases h1 : p ≤ 8 * (i / 8)
  · rw [if_pos (by omega)]
    have : ¬ i < p := by omega
    simp [this]
  · rw [if_neg (by omega)]
    by_cases h2 : p - 8 * (i / 8 - 0) ≥ 8
    · rw [if_pos h2]
      have := ff_shift_getLsbD ⟨0, by omega⟩ ⟨7 - i % 8, by omega⟩
      simp at this
      have h3 : i < p := by omega
      simp [h3]
      omega
    · rw [if_neg h2]
      have := ff_shift_getLsbD ⟨8 - (p - 8 * (i / 8 - 0)), by omega⟩ ⟨7 - i % 8, by omega⟩
      simp only at this
      rw [this]
      rw [decide_eq_decide]
      omega

theorem oct_addrAnd (a m : Addr) (k : Nat) (hk : k < 16) : oct (addrAnd a m) k = oct a k &&& oct m k := by
  simp [oct, addrAnd, hk]

theorem oct_addrOr (a m : Addr) (k : Nat) (hk : k < 16) : oct (addrOr a m) k = oct a k ||| ~~~ oct m k := by
  simp [oct, addrOr, hk]

theorem getBit_and (a m : Addr) (i : Nat) (hi : i < 128) :
    getBit (addrAnd a m) i = (getBit a i && getBit m i) := by
  rw [getBit_eq_getLsbD, getBit_eq_getLsbD, getBit_eq_getLsbD, oct_addrAnd _ _ _ (by omega)]
  simp

theorem getBit_or (a m : Addr) (i : Nat) (hi : i < 128) :
    getBit (addrOr a m) i = (getBit a i || !getBit m i) := by
  rw [getBit_eq_getLsbD, getBit_eq_getLsbD, getBit_eq_getLsbD, oct_addrOr _ _ _ (by omega)]
  have : 7 - i % 8 < 8 := by omega
  simp [this]

/-! ### IPv4-mapped addresses -/

theorem isV4Mapped_iff_octets (a : Addr) :
    isV4Mapped a = true ↔ (∀ i, i < 10 → oct a i = 0) ∧ oct a 10 = 0xff ∧ oct a 11 = 0xff := by
  simp [isV4Mapped, List.all_eq_true]

theorem value_div_v4 (a : Addr) : value a / 2 ^ 32 = valUpto a 12 := by
  have h := valUpto_valFrom a 4 (by omega)
  have hl := valFrom_lt a 4
  simp at h hl
  rw [← h]
  omega

theorem isV4Mapped_iff (a : Addr) : isV4Mapped a = true ↔ IsV4 a := by
  unfold IsV4
  rw [value_div_v4, isV4Mapped_iff_octets]
  have href : valUpto (addrReset .inet) 12 = 0xffff := by decide
  constructor
  · intro ⟨h1, h2, h3⟩
    rw [← href]
    apply valUpto_congr
    intro i hi
    by_cases h10 : i < 10
    · rw [h1 i h10]
      have : ∀ i : Fin 10, 0 = oct (addrReset .inet) i.val := by decide
      exact this ⟨i, h10⟩
    · have : i = 10 ∨ i = 11 := by omega
      rcases this with rfl | rfl
      · rw [h2]; decide
      · rw [h3]; decide
  · intro h
    rw [← href] at h
    have h := valUpto_inj h
    refine ⟨?_, ?_, ?_⟩
    · intro i hi
      rw [h i (by omega)]
      have : ∀ i : Fin 10, oct (addrReset .inet) i.val = 0 := by decide
      exact this ⟨i, hi⟩
    · rw [h 10 (by omega)]; decide
    · rw [h 11 (by omega)]; decide

theorem isV4Mapped_eq_decide (a : Addr) : isV4Mapped a = decide (IsV4 a) := by
  rw [Bool.eq_iff_iff, isV4Mapped_iff]; simp

/-- the bits of the prefix ::ffff:0:0/96 -/
def v4bit (i : Nat) : Bool := decide (80 ≤ i)

theorem isV4Mapped_iff_bits (a : Addr) :
    isV4Mapped a = true ↔ ∀ i, i < 96 → getBit a i = v4bit i := by
  rw [isV4Mapped_iff_octets]
  constructor
  · intro ⟨h1, h2, h3⟩ i hi
    rw [getBit_eq_getLsbD, v4bit]
    by_cases h10 : i / 8 < 10
    · rw [h1 _ h10]
      have : ¬ 80 ≤ i := by omega
      simp [this]
    · have hb : ∀ j : Fin 8, (0xff : BitVec 8).getLsbD j.val = true := by decide
      have hb := hb ⟨7 - i % 8, by omega⟩
      have : i / 8 = 10 ∨ i / 8 = 11 := by omega
      have h80 : 80 ≤ i := by omega
      rcases this with h | h
      · rw [h, h2]; simp only [h80, decide_true]; exact hb
      · rw [h, h3]; simp only [h80, decide_true]; exact hb
  · intro h
    have key : ∀ k, k < 12 → ∀ j, j < 8 → (oct a k).getLsbD j = v4bit (8 * k + (7 - j)) := by
      intro k hk j hj
      rw [← h (8 * k + (7 - j)) (by omega), getBit_eq_getLsbD]
      congr 1
      · congr 1; omega
      · omega
    refine ⟨?_, ?_, ?_⟩
    · intro i hi
      apply BitVec.eq_of_getLsbD_eq
      intro j hj
      rw [key i (by omega) j hj, v4bit]
      have : ¬ 80 ≤ 8 * i + (7 - j) := by omega
      simp [this]
    · apply BitVec.eq_of_getLsbD_eq
      intro j hj
      have hb : ∀ j : Fin 8, (0xff : BitVec 8).getLsbD j.val = true := by decide
      rw [key 10 (by omega) j hj, v4bit]
      have h80 : 80 ≤ 8 * 10 + (7 - j) := by omega
      simp only [h80, decide_true]; exact (hb ⟨j, hj⟩).symm
    · apply BitVec.eq_of_getLsbD_eq
      intro j hj
      have hb : ∀ j : Fin 8, (0xff : BitVec 8).getLsbD j.val = true := by decide
      rw [key 11 (by omega) j hj, v4bit]
      have h80 : 80 ≤ 8 * 11 + (7 - j) := by omega
      simp only [h80, decide_true]; exact (hb ⟨j, hj⟩).symm

/-! ### agreement on a prefix -/

theorem div_pow_eq_iff (x y k : Nat) :
    x / 2 ^ k = y / 2 ^ k ↔ ∀ j, k ≤ j → x.testBit j = y.testBit j := by
  constructor
  · intro h j hj
    have := congrArg (fun z => z.testBit (j - k)) h
    simp only [Nat.testBit_div_two_pow] at this
    have e : j - k + k = j := by omega
    rw [e] at this
    exact this
  · intro h
    apply Nat.eq_of_testBit_eq
    intro i
    simp only [Nat.testBit_div_two_pow]
    exact h _ (by omega)

theorem agreeOn_iff (p : Nat) (hp : p ≤ 128) (a b : Addr) :
    AgreeOn p a b ↔ ∀ i, i < p → getBit a i = getBit b i := by
  unfold AgreeOn
  rw [div_pow_eq_iff]
  constructor
  · intro h i hi
    rw [getBit_eq_bit _ _ (by omega), getBit_eq_bit _ _ (by omega)]
    exact h _ (by omega)
  · intro h j hj
    by_cases hj' : j < 128
    · have := h (127 - j) (by omega)
      rw [getBit_eq_bit _ _ (by omega), getBit_eq_bit _ _ (by omega), bit, bit] at this
      have e : 127 - (127 - j) = j := by omega
      rwa [e] at this
    · have h1 := value_lt a
      have h2 := value_lt b
      have hpow : 2 ^ 128 ≤ 2 ^ j := Nat.pow_le_pow_right (by omega) (by omega)
      rw [Nat.testBit_lt_two_pow (by omega), Nat.testBit_lt_two_pow (by omega)]

/-! ### first and last address of a block -/

theorem value_masked (a : Addr) (p : Nat) (hp : p ≤ 128) :
    value (addrAnd a (prefixToBitmask p)) = value a / 2 ^ (128 - p) * 2 ^ (128 - p) := by
  apply Nat.eq_of_testBit_eq
  intro j
  rw [Nat.testBit_mul_two_pow, Nat.testBit_div_two_pow]
  by_cases hj : j < 128
  · have h := getBit_and a (prefixToBitmask p) (127 - j) (by omega)
    rw [getBit_mask _ _ hp (by omega), getBit_eq_bit _ _ (by omega), getBit_eq_bit _ _ (by omega),
      bit, bit] at h
    have e : 127 - (127 - j) = j := by omega
    rw [e] at h
    rw [h]
    by_cases h1 : 128 - p ≤ j
    · have h2 : 127 - j < p := by omega
      have e : j - (128 - p) + (128 - p) = j := by omega
      simp [h1, h2, e]
    · have h2 : ¬ 127 - j < p := by omega
      simp [h1, h2]
  · have hpow : 2 ^ 128 ≤ 2 ^ j := Nat.pow_le_pow_right (by omega) (by omega)
    have h1 := value_lt (addrAnd a (prefixToBitmask p))
    have h2 := value_lt a
    rw [Nat.testBit_lt_two_pow (by omega)]
    have : (value a).testBit (j - (128 - p) + (128 - p)) = false := by
      apply Nat.testBit_lt_two_pow
      have : 2 ^ 128 ≤ 2 ^ (j - (128 - p) + (128 - p)) := Nat.pow_le_pow_right (by omega) (by omega)
      omega
    simp [this]

theorem value_filled (a : Addr) (p : Nat) (hp : p ≤ 128) :
    value (addrOr a (prefixToBitmask p)) = value a / 2 ^ (128 - p) * 2 ^ (128 - p) + (2 ^ (128 - p) - 1) := by
  apply Nat.eq_of_testBit_eq
  intro j
  have hlt : 2 ^ (128 - p) - 1 < 2 ^ (128 - p) := by have := Nat.two_pow_pos (128 - p); omega
  rw [testBit_mul_add _ _ _ _ hlt, Nat.testBit_div_two_pow, Nat.testBit_two_pow_sub_one]
  by_cases hj : j < 128
  · have h := getBit_or a (prefixToBitmask p) (127 - j) (by omega)
    rw [getBit_mask _ _ hp (by omega), getBit_eq_bit _ _ (by omega), getBit_eq_bit _ _ (by omega),
      bit, bit] at h
    have e : 127 - (127 - j) = j := by omega
    rw [e] at h
    rw [h]
    by_cases h1 : j < 128 - p
    · have h2 : ¬ 127 - j < p := by omega
      simp [h1, h2]
    · have h2 : 127 - j < p := by omega
      have e : j - (128 - p) + (128 - p) = j := by omega
      simp [h1, h2, e]
  · have hpow : 2 ^ 128 ≤ 2 ^ j := Nat.pow_le_pow_right (by omega) (by omega)
    have h1 := value_lt (addrOr a (prefixToBitmask p))
    have h2 := value_lt a
    rw [Nat.testBit_lt_two_pow (by omega), if_neg (by omega)]
    symm
    apply Nat.testBit_lt_two_pow
    have : 2 ^ 128 ≤ 2 ^ (j - (128 - p) + (128 - p)) := Nat.pow_le_pow_right (by omega) (by omega)
    omega

end Loc
