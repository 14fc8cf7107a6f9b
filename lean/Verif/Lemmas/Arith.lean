import Verif.Lemmas.Mask
import Mathlib.Tactic.Ring
/-
Helper lemmas: increment, decrement, subtraction, common bits, bit length.
-/
namespace Loc
open Spec

/-! ### octet ranges -/

theorem valFrom_congr {a b : Addr} {r : Nat} (hr : r ≤ 16)
    (h : ∀ i, 16 - r ≤ i → i < 16 → oct a i = oct b i) : valFrom a r = valFrom b r := by
  induction r with
  | zero => rfl
  | succ r ih =>
    simp only [valFrom]
    rw [ih (by omega) (fun i h1 h2 => h i (by omega) h2), h (15 - r) (by omega) (by omega)]

theorem valFrom_all_zero {a : Addr} {r : Nat} (hr : r ≤ 16)
    (h : ∀ i, 16 - r ≤ i → i < 16 → oct a i = 0) : valFrom a r = 0 := by
  induction r with
  | zero => rfl
  | succ r ih =>
    simp only [valFrom]
    rw [ih (by omega) (fun i h1 h2 => h i (by omega) h2), h (15 - r) (by omega) (by omega)]
    simp

theorem valFrom_eq_zero {a : Addr} {r : Nat} (h : valFrom a r = 0) (hr : r ≤ 16) :
    ∀ i, 16 - r ≤ i → i < 16 → oct a i = 0 := by
  induction r with
  | zero => intro i h1 h2; omega
  | succ r ih =>
    simp only [valFrom] at h
    have hp : 0 < 256 ^ r := Nat.pow_pos (by omega)
    have h0 : (oct a (15 - r)).toNat * 256 ^ r = 0 := by omega
    have h1 : valFrom a r = 0 := by omega
    have h2 : (oct a (15 - r)).toNat = 0 := by
      rcases Nat.mul_eq_zero.mp h0 with h | h
      · exact h
      · omega
    intro i hi1 hi2
    by_cases e : i = 15 - r
    · subst e; exact BitVec.eq_of_toNat_eq (by simpa using h2)
    · exact ih h1 (by omega) i (by omega) hi2

theorem valFrom_all_ones {a : Addr} {r : Nat} (hr : r ≤ 16)
    (h : ∀ i, 16 - r ≤ i → i < 16 → oct a i = 255) : valFrom a r = 256 ^ r - 1 := by
  induction r with
  | zero => rfl
  | succ r ih =>
    simp only [valFrom]
    rw [ih (by omega) (fun i h1 h2 => h i (by omega) h2), h (15 - r) (by omega) (by omega)]
    have hp : 0 < 256 ^ r := Nat.pow_pos (by omega)
    have : (255 : Byte).toNat = 255 := rfl
    rw [this, Nat.pow_succ]
    omega

theorem valFrom_eq_max {a : Addr} {r : Nat} (h : valFrom a r = 256 ^ r - 1) (hr : r ≤ 16) :
    ∀ i, 16 - r ≤ i → i < 16 → oct a i = 255 := by
  induction r with
  | zero => intro i h1 h2; omega
  | succ r ih =>
    simp only [valFrom, Nat.pow_succ] at h
    have hp : 0 < 256 ^ r := Nat.pow_pos (by omega)
    have hlt := valFrom_lt a r
    have h8 := (oct a (15 - r)).isLt
    have h255 : (oct a (15 - r)).toNat = 255 := by
      by_cases hh : (oct a (15 - r)).toNat = 255
      · exact hh
      · have : (oct a (15 - r)).toNat * 256 ^ r ≤ 254 * 256 ^ r := Nat.mul_le_mul_right _ (by omega)
        omega
    rw [h255] at h
    intro i hi1 hi2
    by_cases e : i = 15 - r
    · subst e; exact BitVec.eq_of_toNat_eq (by simpa using h255)
    · exact ih (by omega) (by omega) i (by omega) hi2

theorem loOctet_cases (a : Addr) :
    (isV4Mapped a = true ∧ loOctet a = 12) ∨ (isV4Mapped a = false ∧ loOctet a = 0) := by
  unfold loOctet
  cases h : isV4Mapped a <;> simp

theorem mem_octetRange (a : Addr) (i : Nat) : i ∈ octetRange a ↔ loOctet a ≤ i ∧ i < 16 := by
  have := loOctet_cases a
  simp only [octetRange, List.mem_range'_1]
  omega

theorem allOnes_iff (a : Addr) :
    allOnes a = true ↔ ∀ i, loOctet a ≤ i → i < 16 → oct a i = 255 := by
  simp only [allOnes, List.all_eq_true, mem_octetRange, Bool.not_eq_true', decide_eq_false_iff_not]
  constructor
  · intro h i h1 h2
    have := h i ⟨h1, h2⟩
    apply BitVec.eq_of_toNat_eq
    have h3 := (oct a i).isLt
    simp only [BitVec.lt_def] at this
    have e : (255 : BitVec 8).toNat = 255 := rfl
    omega
  · intro h i hi
    rw [h i hi.1 hi.2]; decide

theorem allZeroes_iff (a : Addr) :
    allZeroes a = true ↔ ∀ i, loOctet a ≤ i → i < 16 → oct a i = 0 := by
  simp only [allZeroes, List.all_eq_true, mem_octetRange, beq_iff_eq]
  exact ⟨fun h i h1 h2 => h i ⟨h1, h2⟩, fun h i hi => h i hi.1 hi.2⟩

/-- largest address of the family of `a`, as a number -/
def famMax (a : Addr) : Nat := if IsV4 a then 0xffffffffffff else 2 ^ 128 - 1

/-- smallest address of the family of `a`, as a number -/
def famMin (a : Addr) : Nat := if IsV4 a then 0xffff00000000 else 0

theorem allOnes_iff_value (a : Addr) : allOnes a = true ↔ value a = famMax a := by
  rw [allOnes_iff, famMax]
  rcases loOctet_cases a with ⟨hv, hl⟩ | ⟨hv, hl⟩
  · have hv4 := (isV4Mapped_iff a).mp hv
    rw [if_pos hv4, hl]
    have h := valUpto_valFrom a 4 (by omega)
    have hd := value_div_v4 a
    unfold IsV4 at hv4
    rw [hv4] at hd
    simp only [Nat.reduceSub, ← hd] at h
    constructor
    · intro h1
      have := valFrom_all_ones (r := 4) (by omega) (fun i hi1 hi2 => h1 i (by omega) hi2)
      omega
    · intro h1
      have := valFrom_eq_max (a := a) (r := 4) (by omega) (by omega)
      exact fun i hi1 hi2 => this i (by omega) hi2
  · have hv4 : ¬ IsV4 a := by rw [← isV4Mapped_iff, hv]; simp
    rw [if_neg hv4, hl]
    have h := value_eq_valFrom a
    constructor
    · intro h1
      have := valFrom_all_ones (a := a) (r := 16) (by omega) (fun i hi1 hi2 => h1 i (by omega) hi2)
      omega
    · intro h1
      have := valFrom_eq_max (a := a) (r := 16) (by omega) (by omega)
      exact fun i hi1 hi2 => this i (by omega) hi2

theorem allZeroes_iff_value (a : Addr) : allZeroes a = true ↔ value a = famMin a := by
  rw [allZeroes_iff, famMin]
  rcases loOctet_cases a with ⟨hv, hl⟩ | ⟨hv, hl⟩
  · have hv4 := (isV4Mapped_iff a).mp hv
    rw [if_pos hv4, hl]
    have h := valUpto_valFrom a 4 (by omega)
    have hd := value_div_v4 a
    unfold IsV4 at hv4
    rw [hv4] at hd
    simp only [Nat.reduceSub, ← hd] at h
    constructor
    · intro h1
      have := valFrom_all_zero (r := 4) (by omega) (fun i hi1 hi2 => h1 i (by omega) hi2)
      omega
    · intro h1
      have := valFrom_eq_zero (a := a) (r := 4) (by omega) (by omega)
      exact fun i hi1 hi2 => this i (by omega) hi2
  · have hv4 : ¬ IsV4 a := by rw [← isV4Mapped_iff, hv]; simp
    rw [if_neg hv4, hl]
    have h := value_eq_valFrom a
    constructor
    · intro h1
      have := valFrom_all_zero (a := a) (r := 16) (by omega) (fun i hi1 hi2 => h1 i (by omega) hi2)
      omega
    · intro h1
      have := valFrom_eq_zero (a := a) (r := 16) (by omega) (by omega)
      exact fun i hi1 hi2 => this i (by omega) hi2

theorem valUpto_setOct_of_le {a : Addr} {i k : Nat} {v : Byte} (hi : i < 16) (hk : k ≤ i) :
    valUpto (setOct a i v) k = valUpto a k := by
  apply valUpto_congr
  intro j hj
  rw [oct_setOct _ _ _ _ hi, if_neg (by omega)]

theorem isV4Mapped_setOct {a : Addr} {i : Nat} {v : Byte} (h12 : 12 ≤ i) (hi : i < 16) :
    isV4Mapped (setOct a i v) = isV4Mapped a := by
  rw [Bool.eq_iff_iff, isV4Mapped_iff_octets, isV4Mapped_iff_octets]
  have e : ∀ j, j < 12 → oct (setOct a i v) j = oct a j := by
    intro j hj
    rw [oct_setOct _ _ _ _ hi, if_neg (by omega)]
  rw [e 10 (by omega), e 11 (by omega)]
  constructor
  · intro ⟨h1, h2⟩
    exact ⟨fun j hj => by rw [← e j (by omega)]; exact h1 j hj, h2⟩
  · intro ⟨h1, h2⟩
    exact ⟨fun j hj => by rw [e j (by omega)]; exact h1 j hj, h2⟩

/-! ### increment -/

theorem value_split (a : Addr) (o : Nat) (ho : o ≤ 16) :
    value a = valUpto a o * 256 ^ (16 - o) + valFrom a (16 - o) := by
  have := valUpto_valFrom a (16 - o) (by omega)
  have e : 16 - (16 - o) = o := by omega
  rw [e] at this
  exact this.symm

theorem addrIncLoop_value (o : Nat) : ∀ (a : Addr), o ≤ 16 →
    (∀ i, o ≤ i → i < 16 → oct a i = 0) →
    (∃ k, k < o ∧ loOctet a ≤ k ∧ oct a k ≠ 255) →
    value (addrIncLoop a o) = (valUpto a o + 1) * 256 ^ (16 - o) := by
  induction o with
  | zero => intro a _ _ ⟨k, hk, _⟩; omega
  | succ o ih =>
    intro a ho hz ⟨k, hk, hlo, hne⟩
    simp only [addrIncLoop]
    rw [if_pos (by omega)]
    by_cases hlt : oct a o < 255
    · rw [if_pos hlt, value_split _ (o + 1) ho]
      simp only [valUpto]
      rw [valUpto_setOct_of_le (by omega) (by omega), oct_setOct _ _ _ _ (by omega), if_pos rfl]
      have hz2 : valFrom (setOct a o (oct a o + 1)) (16 - (o + 1)) = 0 := by
        apply valFrom_all_zero (by omega)
        intro i h1 h2
        rw [oct_setOct _ _ _ _ (by omega), if_neg (by omega)]
        exact hz i (by omega) h2
      rw [hz2]
      have : (oct a o + 1).toNat = (oct a o).toNat + 1 := by
        simp only [BitVec.lt_def] at hlt
        have e : (255 : BitVec 8).toNat = 255 := rfl
        rw [BitVec.toNat_add]
        have e1 : (1 : BitVec 8).toNat = 1 := rfl
        omega
      rw [this, Nat.add_zero, Nat.add_assoc]
    · rw [if_neg hlt]
      have h255 : oct a o = 255 := by
        apply BitVec.eq_of_toNat_eq
        have h3 := (oct a o).isLt
        simp only [BitVec.lt_def] at hlt
        have e : (255 : BitVec 8).toNat = 255 := rfl
        omega
      have hko : k ≠ o := by intro e; subst e; exact hne h255
      rw [ih (setOct a o 0) (by omega)]
      · rw [valUpto_setOct_of_le (by omega) (by omega)]
        simp only [valUpto]
        rw [h255]
        have e : (255 : BitVec 8).toNat = 255 := rfl
        rw [e]
        have e2 : 16 - o = (16 - (o + 1)) + 1 := by omega
        rw [e2, Nat.pow_succ, Nat.mul_comm (256 ^ _) 256, ← Nat.mul_assoc]
        have e3 : (valUpto a o + 1) * 256 = valUpto a o * 256 + 255 + 1 := by omega
        rw [e3]
      · intro i h1 h2
        rw [oct_setOct _ _ _ _ (by omega)]
        by_cases e : o = i
        · rw [if_pos e]
        · rw [if_neg e]; exact hz i (by omega) h2
      · refine ⟨k, by omega, ?_, ?_⟩
        · rcases loOctet_cases (setOct a o 0) with ⟨hv, hl⟩ | ⟨hv, hl⟩
          · by_cases h12 : 12 ≤ o
            · rw [isV4Mapped_setOct h12 (by omega)] at hv
              have : loOctet a = 12 := by simp [loOctet, hv]
              omega
            · exfalso
              obtain ⟨h1, h2, h3⟩ := (isV4Mapped_iff_octets _).mp hv
              rw [oct_setOct _ _ _ _ (by omega)] at h3
              by_cases h11 : o = 11
              · rw [if_pos h11] at h3; exact absurd h3 (by decide)
              · rw [if_neg h11, hz 11 (by omega) (by omega)] at h3; exact absurd h3 (by decide)
          · omega
        · rw [oct_setOct _ _ _ _ (by omega), if_neg (by omega)]; exact hne

theorem value_addrInc (a : Addr) :
    value (addrInc a) = if value a = famMax a then value a else value a + 1 := by
  unfold addrInc
  by_cases h : allOnes a = true
  · rw [if_pos h, if_pos ((allOnes_iff_value a).mp h)]
  · have hne : ¬ value a = famMax a := fun e => h ((allOnes_iff_value a).mpr e)
    rw [if_neg h, if_neg hne]
    have hex : ∃ k, k < 16 ∧ loOctet a ≤ k ∧ oct a k ≠ 255 := by
      rw [allOnes_iff] at h
      have h := Classical.not_forall.mp h
      obtain ⟨k, hk⟩ := h
      refine ⟨k, ?_⟩
      by_cases h1 : loOctet a ≤ k <;> by_cases h2 : k < 16 <;> simp_all
    rw [addrIncLoop_value 16 a (by omega) (by intro i h1 h2; omega) hex, ← value_eq]
    simp

/-! ### decrement -/

theorem addrDecLoop_value (o : Nat) : ∀ (a : Addr), o ≤ 16 →
    (∀ i, o ≤ i → i < 16 → oct a i = 255) →
    (∃ k, k < o ∧ loOctet a ≤ k ∧ oct a k ≠ 0) →
    (12 ≤ o → ¬ (valUpto a 12 = 0xff00 ∧ ∀ i, 12 ≤ i → i < o → oct a i = 0)) →
    value (addrDecLoop a o) + 1 = valUpto a o * 256 ^ (16 - o) := by
  induction o with
  | zero => intro a _ _ ⟨k, hk, _⟩; omega
  | succ o ih =>
    intro a ho hz ⟨k, hk, hlo, hne⟩ hbad
    simp only [addrDecLoop]
    rw [if_pos (by omega)]
    by_cases hgt : oct a o > 0
    · rw [if_pos hgt, value_split _ (o + 1) ho]
      simp only [valUpto]
      rw [valUpto_setOct_of_le (by omega) (by omega), oct_setOct _ _ _ _ (by omega), if_pos rfl]
      have hz2 : valFrom (setOct a o (oct a o - 1)) (16 - (o + 1)) = 256 ^ (16 - (o + 1)) - 1 := by
        apply valFrom_all_ones (by omega)
        intro i h1 h2
        rw [oct_setOct _ _ _ _ (by omega), if_neg (by omega)]
        exact hz i (by omega) h2
      rw [hz2]
      have hp : 0 < 256 ^ (16 - (o + 1)) := Nat.pow_pos (by omega)
      simp only [gt_iff_lt, BitVec.lt_def] at hgt
      have e0 : (0 : BitVec 8).toNat = 0 := rfl
      have : (oct a o - 1).toNat + 1 = (oct a o).toNat := by
        have h3 := (oct a o).isLt
        rw [BitVec.toNat_sub]
        have e1 : (1 : BitVec 8).toNat = 1 := rfl
        omega
      rw [← this]
      generalize 256 ^ (16 - (o + 1)) = P at *
      rw [← Nat.add_assoc, Nat.add_mul _ 1]
      omega
    · rw [if_neg hgt]
      have h0 : oct a o = 0 := by
        apply BitVec.eq_of_toNat_eq
        simp only [gt_iff_lt, BitVec.lt_def] at hgt
        have e0 : (0 : BitVec 8).toNat = 0 := rfl
        omega
      have hko : k ≠ o := by intro e; subst e; exact hne h0
      rw [ih (setOct a o 255) (by omega)]
      · rw [valUpto_setOct_of_le (by omega) (by omega)]
        simp only [valUpto]
        rw [h0]
        have e : (0 : BitVec 8).toNat = 0 := rfl
        rw [e]
        have e2 : 16 - o = (16 - (o + 1)) + 1 := by omega
        rw [e2, Nat.pow_succ, Nat.mul_comm (256 ^ _) 256, ← Nat.mul_assoc]
        simp
      · intro i h1 h2
        rw [oct_setOct _ _ _ _ (by omega)]
        by_cases e : o = i
        · rw [if_pos e]
        · rw [if_neg e]; exact hz i (by omega) h2
      · refine ⟨k, by omega, ?_, ?_⟩
        · rcases loOctet_cases (setOct a o 255) with ⟨hv, hl⟩ | ⟨hv, hl⟩
          · by_cases h12 : 12 ≤ o
            · rw [isV4Mapped_setOct h12 (by omega)] at hv
              have : loOctet a = 12 := by simp [loOctet, hv]
              omega
            · exfalso
              obtain ⟨h1, h2, h3⟩ := (isV4Mapped_iff_octets _).mp hv
              have hoct : ∀ i, i < 10 → o ≠ i → oct a i = 0 := by
                intro i hi hoi
                have := h1 i hi
                rw [oct_setOct _ _ _ _ (by omega), if_neg hoi] at this
                exact this
              by_cases h11 : o = 11
              · subst h11
                rw [oct_setOct _ _ _ _ (by omega), if_neg (by omega)] at h2
                apply hbad (by omega)
                constructor
                · have : valUpto a 10 = 0 := by
                    have : valUpto a 10 = valUpto (Vector.replicate 16 0) 10 := by
                      apply valUpto_congr
                      intro i hi
                      rw [hoct i hi (by omega), oct_replicate_zero]
                    rw [this]; decide
                  simp only [valUpto] at this ⊢
                  rw [h2, h0, this]; rfl
                · intro i h1 h2; omega
              · by_cases h10 : o = 10
                · subst h10
                  exact hne (hoct k (by omega) (by omega))
                · have := h1 o (by omega)
                  rw [oct_setOct _ _ _ _ (by omega), if_pos rfl] at this
                  exact absurd this (by decide)
          · omega
        · rw [oct_setOct _ _ _ _ (by omega), if_neg (by omega)]; exact hne
      · intro h12 ⟨hb1, hb2⟩
        apply hbad (by omega)
        rw [valUpto_setOct_of_le (by omega) (by omega)] at hb1
        refine ⟨hb1, ?_⟩
        intro i h1 h2
        by_cases e : i = o
        · subst e; exact h0
        · have := hb2 i h1 (by omega)
          rw [oct_setOct _ _ _ _ (by omega), if_neg (by omega)] at this
          exact this

theorem value_addrDec (a : Addr) (hbad : value a ≠ 0xff0000000000) :
    value (addrDec a) = if value a = famMin a then value a else value a - 1 := by
  unfold addrDec
  by_cases h : allZeroes a = true
  · rw [if_pos h, if_pos ((allZeroes_iff_value a).mp h)]
  · have hne : ¬ value a = famMin a := fun e => h ((allZeroes_iff_value a).mpr e)
    rw [if_neg h, if_neg hne]
    have hex : ∃ k, k < 16 ∧ loOctet a ≤ k ∧ oct a k ≠ 0 := by
      rw [allZeroes_iff] at h
      have h := Classical.not_forall.mp h
      obtain ⟨k, hk⟩ := h
      refine ⟨k, ?_⟩
      by_cases h1 : loOctet a ≤ k <;> by_cases h2 : k < 16 <;> simp_all
    have := addrDecLoop_value 16 a (by omega) (by intro i h1 h2; omega) hex (by
      intro _ ⟨h1, h2⟩
      apply hbad
      have hs := value_split a 12 (by omega)
      rw [h1, valFrom_all_zero (by omega) (fun i hi1 hi2 => h2 i (by omega) hi2)] at hs
      simpa using hs)
    rw [← value_eq] at this
    simp at this
    omega

/-! ### subtraction -/

theorem ofInt_toNat (x : Int) : ((BitVec.ofInt 8 x).toNat : Int) = x % 256 := by
  simp [BitVec.toNat_ofInt]
  omega

theorem addrSubLoop_oct_lt (a b : Addr) (o : Nat) : ∀ (res : Addr) (rem : Int), o ≤ 16 →
    ∀ k, k < loOctet a → oct (addrSubLoop a b res rem o) k = oct res k := by
  induction o with
  | zero => intros; rfl
  | succ o ih =>
    intro res rem ho k hk
    simp only [addrSubLoop]
    split
    · rw [ih _ _ (by omega) k hk, oct_setOct _ _ _ _ (by omega), if_neg (by omega)]
    · rfl

theorem addrSubLoop_valFrom (a b : Addr) (o : Nat) : ∀ (res : Addr) (rem : Int), o ≤ 16 → loOctet a ≤ o →
    ((valFrom res (16 - o) : Nat) : Int) + rem * 256 ^ (16 - o) = valFrom a (16 - o) - valFrom b (16 - o) →
    ∃ rem' : Int, ((valFrom (addrSubLoop a b res rem o) (16 - loOctet a) : Nat) : Int)
      + rem' * 256 ^ (16 - loOctet a) = valFrom a (16 - loOctet a) - valFrom b (16 - loOctet a) := by
  induction o with
  | zero =>
    intro res rem _ hlo h
    refine ⟨rem, ?_⟩
    have : loOctet a = 0 := by omega
    rw [this]
    exact h
  | succ o ih =>
    intro res rem ho hlo h
    simp only [addrSubLoop]
    by_cases hge : o ≥ loOctet a
    · rw [if_pos hge]
      apply ih _ _ (by omega) hge
      generalize hx : ((oct a o).toNat : Int) - ((oct b o).toNat : Int) + rem = x
      have e : 16 - o = (16 - (o + 1)) + 1 := by omega
      have e15 : 15 - (16 - (o + 1)) = o := by omega
      rw [e]
      simp only [valFrom, e15]
      rw [oct_setOct _ _ _ _ (by omega), if_pos rfl]
      have hc : valFrom (setOct res o (BitVec.ofInt 8 x)) (16 - (o + 1)) = valFrom res (16 - (o + 1)) := by
        apply valFrom_congr (by omega)
        intro i h1 h2
        rw [oct_setOct _ _ _ _ (by omega), if_neg (by omega)]
      rw [hc]
      push_cast
      rw [ofInt_toNat]
      have hdm : x % 256 = x - 256 * (x / 256) := by omega
      rw [hdm]
      have e3 : 16 - (o + 1) = 15 - o := by omega
      rw [e3] at h
      have h' : ((valFrom res (15 - o) : Nat) : Int) =
        valFrom a (15 - o) - valFrom b (15 - o) - rem * 256 ^ (15 - o) := by omega
      rw [h', ← hx]
      ring
    · rw [if_neg hge]
      have : loOctet a = o + 1 := by omega
      rw [this]
      exact ⟨rem, h⟩

theorem value_addrSub (a b : Addr) (hf : addrFamily a = addrFamily b) :
    ∃ d, addrSub a b = .ok d ∧
      (value d : Int) = famMin a + ((value a : Int) - value b) % (famMax a - famMin a + 1) := by
  refine ⟨addrSubLoop a b (addrReset (addrFamily a)) 0 16, ?_, ?_⟩
  · simp [addrSub, hf]
  · obtain ⟨rem', h⟩ := addrSubLoop_valFrom a b 16 (addrReset (addrFamily a)) 0 (by omega)
      (by have := loOctet_cases a; omega) (by simp [valFrom])
    have hlt := addrSubLoop_oct_lt a b 16 (addrReset (addrFamily a)) 0 (by omega)
    generalize hd : addrSubLoop a b (addrReset (addrFamily a)) 0 16 = d at *
    rcases loOctet_cases a with ⟨hv, hl⟩ | ⟨hv, hl⟩
    · have hva : IsV4 a := (isV4Mapped_iff a).mp hv
      have hvb : IsV4 b := by
        apply (isV4Mapped_iff b).mp
        unfold addrFamily at hf
        rw [hv] at hf
        cases hb : isV4Mapped b <;> simp_all
      have hfa : addrFamily a = .inet := by simp [addrFamily, hv]
      rw [hl] at h hlt
      rw [hfa] at hlt
      have h12 : valUpto d 12 = 0xffff := by
        have : valUpto d 12 = valUpto (addrReset .inet) 12 := valUpto_congr hlt
        rw [this]; decide
      have hsd := value_split d 12 (by omega)
      have hsa := value_split a 12 (by omega)
      have hsb := value_split b 12 (by omega)
      have hda := value_div_v4 a
      have hdb := value_div_v4 b
      unfold IsV4 at hva hvb
      rw [hva] at hda
      rw [hvb] at hdb
      rw [h12] at hsd
      rw [← hda] at hsa
      rw [← hdb] at hsb
      have hld := valFrom_lt d 4
      simp only [famMin, famMax, IsV4, hva, if_true]
      simp only [Nat.reduceSub, Nat.reducePow, Int.reducePow] at *
      omega
    · have hva : ¬ IsV4 a := by rw [← isV4Mapped_iff, hv]; simp
      rw [hl] at h
      simp only [Nat.sub_zero, ← value_eq_valFrom] at h
      have hld := value_lt d
      simp only [famMin, famMax, hva, if_false]
      simp only [Nat.reducePow, Int.reducePow] at *
      omega

/-! ### common bits -/

theorem clz_table : ∀ (z : BitVec 8), z ≠ 0 →
    (clz32 z - 24 < 8 ∧ (∀ j : Fin 8, j.val < clz32 z - 24 → z.getLsbD (7 - j.val) = false)
      ∧ z.getLsbD (7 - (clz32 z - 24)) = true) := by decide +kernel

theorem clz_xor_spec (x y : BitVec 8) (h : x ≠ y) :
    clz32 (x ^^^ y) - 24 < 8 ∧
    (∀ j, j < clz32 (x ^^^ y) - 24 → x.getLsbD (7 - j) = y.getLsbD (7 - j)) ∧
    x.getLsbD (7 - (clz32 (x ^^^ y) - 24)) ≠ y.getLsbD (7 - (clz32 (x ^^^ y) - 24)) := by
  have hz : x ^^^ y ≠ 0 := by
    intro e
    apply h
    apply BitVec.eq_of_getLsbD_eq
    intro i hi
    have := congrArg (fun b => b.getLsbD i) e
    simpa [BitVec.getLsbD_xor, hi] using this
  obtain ⟨h1, h2, h3⟩ := clz_table _ hz
  refine ⟨h1, ?_, ?_⟩
  · intro j hj
    have := h2 ⟨j, by omega⟩ hj
    simpa [BitVec.getLsbD_xor] using this
  · simpa [BitVec.getLsbD_xor] using h3

/-- `c` is the first position (counted from bit `s`) where the addresses differ, or they agree on
    all bits from `s`. -/
theorem commonBitsLoop_spec (a b : Addr) (r : Nat) : ∀ (acc s : Nat), r ≤ 16 → s + acc = 8 * (16 - r) →
    (∀ i, s ≤ i → i < s + acc → getBit a i = getBit b i) →
    s + commonBitsLoop a b acc r ≤ 128 ∧
    (∀ i, s ≤ i → i < s + commonBitsLoop a b acc r → getBit a i = getBit b i) ∧
    (s + commonBitsLoop a b acc r < 128 →
      getBit a (s + commonBitsLoop a b acc r) ≠ getBit b (s + commonBitsLoop a b acc r)) := by
  induction r with
  | zero =>
    intro acc s _ hs h
    simp only [commonBitsLoop]
    exact ⟨by omega, h, by omega⟩
  | succ r ih =>
    intro acc s hr hs h
    simp only [commonBitsLoop]
    by_cases he : oct a (15 - r) = oct b (15 - r)
    · simp only [he, beq_self_eq_true, if_true]
      apply ih (acc + 8) s (by omega) (by omega)
      intro i h1 h2
      by_cases hlt : i < s + acc
      · exact h i h1 hlt
      · rw [getBit_eq_getLsbD, getBit_eq_getLsbD]
        have : i / 8 = 15 - r := by omega
        rw [this, he]
    · have hbeq : (oct a (15 - r) == oct b (15 - r)) = false := by simpa using he
      simp only [hbeq, Bool.false_eq_true, if_false]
      obtain ⟨h1, h2, h3⟩ := clz_xor_spec _ _ he
      generalize clz32 (oct a (15 - r) ^^^ oct b (15 - r)) - 24 = c at *
      refine ⟨by omega, ?_, ?_⟩
      · intro i hi1 hi2
        by_cases hlt : i < s + acc
        · exact h i hi1 hlt
        · rw [getBit_eq_getLsbD, getBit_eq_getLsbD]
          have e : i / 8 = 15 - r := by omega
          rw [e]
          exact h2 (i % 8) (by omega)
      · intro _
        rw [getBit_eq_getLsbD, getBit_eq_getLsbD]
        have e : (s + (acc + c)) / 8 = 15 - r := by omega
        have e2 : (s + (acc + c)) % 8 = c := by omega
        rw [e, e2]
        exact h3

/-- first bit of the address proper: 96 for IPv4, 0 for IPv6 -/
def famStart (a : Addr) : Nat := if isV4Mapped a then 96 else 0

theorem commonBits_spec (a b : Addr) (hf : addrFamily a = addrFamily b) :
    ∃ c, commonBits a b = .ok c ∧ famStart a + c ≤ 128 ∧
      (∀ i, i < famStart a + c → getBit a i = getBit b i) ∧
      (famStart a + c < 128 → getBit a (famStart a + c) ≠ getBit b (famStart a + c)) := by
  have hv : isV4Mapped a = isV4Mapped b := by
    unfold addrFamily at hf
    cases ha : isV4Mapped a <;> cases hb : isV4Mapped b <;> simp_all
  refine ⟨commonBitsLoop a b 0 (16 - loOctet a), ?_, ?_⟩
  · unfold commonBits
    rw [hv]
    cases isV4Mapped b <;> simp
  · rcases loOctet_cases a with ⟨h4, hl⟩ | ⟨h4, hl⟩
    · rw [hl, famStart, if_pos h4]
      obtain ⟨h1, h2, h3⟩ := commonBitsLoop_spec a b 4 0 96 (by omega) (by omega) (by intro i _ _; omega)
      refine ⟨h1, ?_, h3⟩
      intro i hi
      by_cases h : 96 ≤ i
      · exact h2 i h hi
      · rw [(isV4Mapped_iff_bits a).mp h4 i (by omega),
          (isV4Mapped_iff_bits b).mp (hv ▸ h4) i (by omega)]
    · rw [hl, famStart, h4]
      obtain ⟨h1, h2, h3⟩ := commonBitsLoop_spec a b 16 0 0 (by omega) (by omega) (by intro i _ _; omega)
      exact ⟨h1, fun i hi => h2 i (by omega) hi, h3⟩

/-! ### bit length -/

theorem ctz8_table : ∀ (b : BitVec 8), b ≠ 0 →
    (((List.range 8).find? (fun i => b.getLsbD i)).getD 8 < 8 ∧
      b.getLsbD (((List.range 8).find? (fun i => b.getLsbD i)).getD 8) = true ∧
      ∀ j : Fin 8, j.val < ((List.range 8).find? (fun i => b.getLsbD i)).getD 8 →
        b.getLsbD j.val = false) := by decide +kernel

theorem ctz8_spec (ctz0 : Nat) (b : Byte) (h : b ≠ 0) :
    ctz8 ctz0 b < 8 ∧ b.getLsbD (ctz8 ctz0 b) = true ∧ ∀ j, j < ctz8 ctz0 b → b.getLsbD j = false := by
  obtain ⟨h1, h2, h3⟩ := ctz8_table b h
  unfold ctz8
  rw [if_neg h]
  exact ⟨h1, h2, fun j hj => h3 ⟨j, by omega⟩ hj⟩

/-- `L` bits (after the first `famStart a`) are needed to represent `a`. -/
theorem bitLengthLoop_spec (ctz0 : Nat) (h0 : 8 ≤ ctz0) (a : Addr) (o : Nat) : ∀ (bl : Nat), o ≤ 16 →
    loOctet a ≤ o → 8 * loOctet a + bl = 8 * o →
    (∀ i, 8 * o ≤ i → i < 128 → getBit a i = false) →
    let L := bitLengthLoop ctz0 a bl o
    8 * loOctet a + L ≤ 8 * o ∧
    (∀ i, 8 * loOctet a + L ≤ i → i < 128 → getBit a i = false) ∧
    (0 < L → getBit a (8 * loOctet a + L - 1) = true) := by
  induction o with
  | zero =>
    intro bl _ hlo hbl hz
    simp only [bitLengthLoop]
    exact ⟨by omega, fun i h1 h2 => hz i (by omega) h2, by omega⟩
  | succ o ih =>
    intro bl ho hlo hbl hz
    simp only [bitLengthLoop]
    by_cases hge : o ≥ loOctet a
    · rw [if_pos hge]
      by_cases hb : oct a o = 0
      · have hc : ctz8 ctz0 (oct a o) = ctz0 := by unfold ctz8; rw [if_pos hb]
        rw [hc]
        have e8 : (if ctz0 > 8 then 8 else ctz0) = 8 := by split <;> omega
        rw [e8, if_neg (by omega)]
        have := ih (bl - 8) (by omega) hge (by omega) (by
          intro i h1 h2
          by_cases h : 8 * (o + 1) ≤ i
          · exact hz i h h2
          · rw [getBit_eq_getLsbD]
            have : i / 8 = o := by omega
            rw [this, hb]; simp)
        refine ⟨by omega, this.2.1, this.2.2⟩
      · obtain ⟨h1, h2, h3⟩ := ctz8_spec ctz0 _ hb
        generalize ctz8 ctz0 (oct a o) = c at *
        have e8 : (if c > 8 then 8 else c) = c := by split <;> omega
        rw [e8, if_pos h1]
        refine ⟨by omega, ?_, ?_⟩
        · intro i hi1 hi2
          by_cases h : 8 * (o + 1) ≤ i
          · exact hz i h hi2
          · rw [getBit_eq_getLsbD]
            have : i / 8 = o := by omega
            rw [this]
            exact h3 _ (by omega)
        · intro _
          rw [getBit_eq_getLsbD]
          have e1 : (8 * loOctet a + (bl - c) - 1) / 8 = o := by omega
          have e2 : 7 - (8 * loOctet a + (bl - c) - 1) % 8 = c := by omega
          rw [e1, e2]; exact h2
    · rw [if_neg hge]
      exact ⟨by omega, fun i h1 h2 => hz i (by omega) h2, by omega⟩

theorem bitLength_spec (ctz0 : Nat) (h0 : 8 ≤ ctz0) (a : Addr) :
    famStart a + bitLength ctz0 a ≤ 128 ∧
    (∀ i, famStart a + bitLength ctz0 a ≤ i → i < 128 → getBit a i = false) ∧
    (0 < bitLength ctz0 a → getBit a (famStart a + bitLength ctz0 a - 1) = true) := by
  have hfs : famStart a = 8 * loOctet a := by
    rcases loOctet_cases a with ⟨h4, hl⟩ | ⟨h4, hl⟩ <;> rw [hl, famStart, h4] <;> rfl
  unfold bitLength
  rw [hfs]
  apply bitLengthLoop_spec ctz0 h0 a 16 _ (by omega) (by have := loOctet_cases a; omega)
  · rcases loOctet_cases a with ⟨h4, hl⟩ | ⟨h4, hl⟩ <;> rw [hl, h4] <;> simp
  · intro i h1 h2; omega

end Loc
