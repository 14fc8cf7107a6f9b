import Verif.Model.Address
import Verif.Spec.Address
/-
Helper lemmas: octets, values and bits of addresses.
-/
namespace Loc
open Spec

theorem oct_setOct (a : Addr) (i j : Nat) (v : Byte) (hi : i < 16) :
    oct (setOct a i v) j = if i = j then v else oct a j := by
  unfold oct setOct
  by_cases hj : j < 16
  · simp only [hi, hj, dif_pos]
    rw [Vector.getElem_set]
  · simp only [hi, hj, dif_pos, dif_neg, not_false_eq_true]
    have : i ≠ j := by omega
    simp [this]

theorem addr_ext {a b : Addr} (h : ∀ i, i < 16 → oct a i = oct b i) : a = b := by
  apply Vector.ext
  intro i hi
  have := h i hi
  simpa [oct, hi] using this

/-- big-endian value of the first `k` octets -/
def valUpto (a : Addr) : Nat → Nat
  | 0 => 0
  | k + 1 => valUpto a k * 256 + (oct a k).toNat

theorem value_eq (a : Addr) : value a = valUpto a 16 := by
  have h : a.toList = (List.range 16).map (oct a) := by
    apply List.ext_getElem
    · simp
    · intro i h1 h2
      simp at h1
      simp [oct, h1]
  unfold value
  rw [h]
  rfl

theorem valUpto_lt (a : Addr) (k : Nat) : valUpto a k < 256 ^ k := by
  induction k with
  | zero => simp [valUpto]
  | succ k ih =>
    have := (oct a k).isLt
    simp only [valUpto, Nat.pow_succ]
    omega

theorem value_lt (a : Addr) : value a < 2 ^ 128 := by
  have := valUpto_lt a 16
  rw [value_eq]; simpa using this

theorem valUpto_congr {a b : Addr} {k : Nat} (h : ∀ i, i < k → oct a i = oct b i) :
    valUpto a k = valUpto b k := by
  induction k with
  | zero => rfl
  | succ k ih =>
    simp only [valUpto]
    rw [ih (fun i hi => h i (by omega)), h k (by omega)]

theorem valUpto_inj {a b : Addr} {k : Nat} (h : valUpto a k = valUpto b k) :
    ∀ i, i < k → oct a i = oct b i := by
  induction k with
  | zero => intro i hi; omega
  | succ k ih =>
    simp only [valUpto] at h
    have h1 := (oct a k).isLt
    have h2 := (oct b k).isLt
    intro i hi
    by_cases hk : i = k
    · subst hk
      apply BitVec.eq_of_toNat_eq
      omega
    · exact ih (by omega) i (by omega)

theorem value_inj {a b : Addr} (h : value a = value b) : a = b := by
  rw [value_eq, value_eq] at h
  exact addr_ext (valUpto_inj h)

theorem value_inj_iff {a b : Addr} : value a = value b ↔ a = b :=
  ⟨value_inj, fun h => by rw [h]⟩

/-- Value of octets `k..16`. -/
def valFrom (a : Addr) : Nat → Nat
  | 0 => 0
  | r + 1 => (oct a (15 - r)).toNat * 256 ^ r + valFrom a r

theorem valFrom_lt (a : Addr) (r : Nat) : valFrom a r < 256 ^ r := by
  induction r with
  | zero => simp [valFrom]
  | succ r ih =>
    have h := (oct a (15 - r)).isLt
    simp only [valFrom, Nat.pow_succ]
    have : (oct a (15 - r)).toNat * 256 ^ r ≤ 255 * 256 ^ r := Nat.mul_le_mul_right _ (by omega)
    omega

theorem valUpto_valFrom (a : Addr) (r : Nat) (hr : r ≤ 16) :
    valUpto a (16 - r) * 256 ^ r + valFrom a r = value a := by
  induction r with
  | zero => simp [valFrom, value_eq]
  | succ r ih =>
    rw [← ih (by omega)]
    have : 16 - r = (15 - r) + 1 := by omega
    rw [this]
    simp only [valUpto, valFrom, Nat.pow_succ]
    have : 16 - (r + 1) = 15 - r := by omega
    rw [this, Nat.add_mul]
    have : valUpto a (15 - r) * (256 ^ r * 256) = valUpto a (15 - r) * 256 * 256 ^ r := by
      rw [Nat.mul_comm (256 ^ r), Nat.mul_assoc]
    omega

theorem value_eq_valFrom (a : Addr) : value a = valFrom a 16 := by
  have := valUpto_valFrom a 16 (by omega)
  simp [valUpto] at this
  exact this.symm

/-! ### comparison -/

theorem addrCmpLoop_spec (a b : Addr) (r : Nat) (hr : r ≤ 16) :
    (addrCmpLoop a b r = 1 ∧ valFrom a r > valFrom b r) ∨
    (addrCmpLoop a b r = -1 ∧ valFrom a r < valFrom b r) ∨
    (addrCmpLoop a b r = 0 ∧ valFrom a r = valFrom b r) := by
  induction r with
  | zero => simp [addrCmpLoop, valFrom]
  | succ r ih =>
    have ih := ih (by omega)
    simp only [addrCmpLoop, valFrom]
    have ha := valFrom_lt a r
    have hb := valFrom_lt b r
    simp only [BitVec.lt_def, gt_iff_lt]
    generalize hx : (oct a (15 - r)).toNat = x
    generalize hy : (oct b (15 - r)).toNat = y
    generalize 256 ^ r = P at *
    by_cases h1 : y < x
    · left
      simp only [h1, if_true, true_and]
      have : (y + 1) * P ≤ x * P := Nat.mul_le_mul_right _ h1
      rw [Nat.add_mul] at this
      omega
    · by_cases h2 : x < y
      · right; left
        simp only [h1, h2, if_true, if_false, true_and]
        have : (x + 1) * P ≤ y * P := Nat.mul_le_mul_right _ h2
        rw [Nat.add_mul] at this
        omega
      · have : x = y := by omega
        subst this
        simp only [h1, if_false]
        omega

theorem addrCmp_spec (a b : Addr) :
    (addrCmp a b = 1 ∧ value a > value b) ∨
    (addrCmp a b = -1 ∧ value a < value b) ∨
    (addrCmp a b = 0 ∧ value a = value b) := by
  rw [value_eq_valFrom, value_eq_valFrom]
  exact addrCmpLoop_spec a b 16 (by omega)

theorem addrCmp_pos {a b : Addr} : addrCmp a b > 0 ↔ value b < value a := by
  have := addrCmp_spec a b; omega

theorem addrCmp_neg {a b : Addr} : addrCmp a b < 0 ↔ value a < value b := by
  have := addrCmp_spec a b; omega

theorem addrCmp_zero {a b : Addr} : addrCmp a b = 0 ↔ a = b := by
  rw [← value_inj_iff]
  have := addrCmp_spec a b; omega

theorem addrCmp_nonpos {a b : Addr} : addrCmp a b ≤ 0 ↔ value a ≤ value b := by
  have := addrCmp_spec a b; omega

theorem addrCmp_nonneg {a b : Addr} : addrCmp a b ≥ 0 ↔ value b ≤ value a := by
  have := addrCmp_spec a b; omega

/-! ### bits -/

theorem byte_shift_and_one : ∀ (o : BitVec 8) (k : Fin 8),
    ((o >>> k.val) &&& 1#8 != 0#8) = o.getLsbD k.val := by decide +kernel

theorem getBit_eq_getLsbD (a : Addr) (i : Nat) :
    getBit a i = (oct a (i / 8)).getLsbD (7 - i % 8) := by
  unfold getBit
  exact byte_shift_and_one (oct a (i / 8)) ⟨7 - i % 8, by omega⟩

theorem testBit_mul_add (x y k j : Nat) (hy : y < 2 ^ k) :
    (x * 2 ^ k + y).testBit j = if j < k then y.testBit j else x.testBit (j - k) := by
  rw [Nat.mul_comm, Nat.testBit_two_pow_mul_add _ hy]

theorem value_testBit_oct (a : Addr) (k j : Nat) (hk : k < 16) (hj : j < 8) :
    (value a).testBit (8 * (15 - k) + j) = (oct a k).getLsbD j := by
  have h := valUpto_valFrom a (15 - k) (by omega)
  have h2 : 16 - (15 - k) = k + 1 := by omega
  rw [h2] at h
  have hp : (256 : Nat) ^ (15 - k) = 2 ^ (8 * (15 - k)) := by rw [Nat.pow_mul]
  have hlt := valFrom_lt a (15 - k)
  rw [hp] at h hlt
  rw [← h, testBit_mul_add _ _ _ _ hlt]
  simp only [valUpto]
  rw [if_neg (by omega)]
  have : 8 * (15 - k) + j - 8 * (15 - k) = j := by omega
  rw [this]
  have h8 : (oct a k).toNat < 2 ^ 8 := (oct a k).isLt
  have : valUpto a k * 256 = valUpto a k * 2 ^ 8 := rfl
  rw [this, testBit_mul_add _ _ _ _ h8, if_pos hj]
  rfl

theorem getBit_eq_bit (a : Addr) (i : Nat) (hi : i < 128) : getBit a i = bit a i := by
  rw [getBit_eq_getLsbD, bit, ← value_testBit_oct a (i / 8) (7 - i % 8) (by omega) (by omega)]
  congr 1
  omega

theorem addr_ext_bits {a b : Addr} (h : ∀ i, i < 128 → getBit a i = getBit b i) : a = b := by
  apply addr_ext
  intro k hk
  apply BitVec.eq_of_getLsbD_eq
  intro j hj
  have := h (8 * k + (7 - j)) (by omega)
  rw [getBit_eq_getLsbD, getBit_eq_getLsbD] at this
  have e1 : (8 * k + (7 - j)) / 8 = k := by omega
  have e2 : 7 - (8 * k + (7 - j)) % 8 = j := by omega
  rw [e1, e2] at this
  exact this

theorem setBitOctet_table : ∀ (o : BitVec 8) (k : Fin 8) (v : Bool) (j : Fin 8),
    ((o ^^^ ((-(if v then 1#8 else 0#8) ^^^ o) &&& (1#8 <<< k.val))).getLsbD j.val)
      = if j.val = k.val then v else o.getLsbD j.val := by decide +kernel

theorem setBitOctet_getLsbD (o : Byte) (i : Nat) (v : Bool) (j : Nat) (hj : j < 8) :
    (setBitOctet o i v).getLsbD j = if j = 7 - i % 8 then v else o.getLsbD j :=
  setBitOctet_table o ⟨7 - i % 8, by omega⟩ v ⟨j, hj⟩

theorem getBit_setBit (a : Addr) (i j : Nat) (v : Bool) (hi : i < 128) (hj : j < 128) :
    getBit (setBit a i v) j = if i = j then v else getBit a j := by
  rw [getBit_eq_getLsbD, getBit_eq_getLsbD, setBit, oct_setOct _ _ _ _ (by omega)]
  by_cases h8 : i / 8 = j / 8
  · rw [if_pos h8, setBitOctet_getLsbD _ _ _ _ (by omega)]
    by_cases hij : i = j
    · subst hij; simp
    · rw [if_neg hij, if_neg (by omega), h8]
  · rw [if_neg h8, if_neg (by intro h; subst h; exact h8 rfl)]

/-! ### bit lists -/

/-- All 128 bits of an address, most significant first. -/
def bits (a : Addr) : List Bool := (List.range 128).map (getBit a)

@[simp] theorem length_bits (a : Addr) : (bits a).length = 128 := by simp [bits]

theorem getElem_bits (a : Addr) (i : Nat) (h : i < (bits a).length) : (bits a)[i] = getBit a i := by
  simp [bits]

theorem bits_inj {a b : Addr} (h : bits a = bits b) : a = b := by
  apply addr_ext_bits
  intro i hi
  have h1 := getElem_bits a i (by simpa using hi)
  have h2 := getElem_bits b i (by simpa using hi)
  rw [← h1, ← h2]
  simp only [h]

end Loc
