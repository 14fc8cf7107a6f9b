import Verif.Lemmas.Arith
/-
C39 (address arithmetic) and C42 (bit helpers).
-/
namespace Loc.Props
open Spec

/-- 10.255.255.255 -/
private def sample : Addr := #v[0,0,0,0, 0,0,0,0, 0,0,0xff,0xff, 10,255,255,255]
/-- ::ff00:0:0 -/
def addrFF00 : Addr := #v[0,0,0,0, 0,0,0,0, 0,0,0xff,0, 0,0,0,0]

/-! ### C39 -/

/-- C39: incrementing adds one to the 128-bit number, and leaves the last address of the family
    unchanged. -/
theorem increment_exact (a : Addr) :
    value (addrInc a) = if value a = familyLast a then value a else value a + 1 :=
  value_addrInc a

example : value sample ≠ familyLast sample ∧ value (addrInc sample) = value sample + 1 := by decide

/-- C39, full statement for decrementing: subtracts one unless the address is the first of its
    family. -/
def DecrementExact (a : Addr) : Prop :=
  value (addrDec a) = if value a = familyFirst a then value a else value a - 1

/-- C39, proved part: decrementing is exact for every address but ::ff00:0:0. -/
theorem decrement_exact_partial (a : Addr) (h : value a ≠ 0xff0000000000) : DecrementExact a :=
  value_addrDec a h

example : value sample ≠ 0xff0000000000 ∧ value (addrDec sample) = value sample - 1 := by decide

/-- C39 is violated by the code: decrementing ::ff00:0:0 gives ::ffff:ffff:ffff (255.255.255.255),
    because the borrow loop re-evaluates its end on the half-updated address, which by then looks like
    an IPv4 address. -/
theorem decrement_violated : value addrFF00 = 0xff0000000000 ∧
    value (addrDec addrFF00) = 0xffffffffffff ∧ ¬ DecrementExact addrFF00 := by
  unfold DecrementExact; decide

/-- C39: incrementing then decrementing restores the address, except when the increment saturates,
    crosses into the IPv4 range or reaches ::ff00:0:0. -/
theorem increment_decrement (a : Addr) (h1 : value a ≠ familyLast a)
    (h2 : value a + 1 ≠ 0xffff00000000) (h3 : value a + 1 ≠ 0xff0000000000) :
    addrDec (addrInc a) = a := by
  have hi : value (addrInc a) = value a + 1 := by rw [increment_exact, if_neg h1]
  have hd := value_addrDec (addrInc a) (by rw [hi]; exact h3)
  rw [hi, if_neg] at hd
  · apply value_inj; omega
  · unfold famMin
    split
    · exact h2
    · omega

example : addrDec (addrInc sample) = sample := by decide

/-- C39: subtracting two addresses of one family gives their difference modulo the number of
    addresses of the family, as an address of that family. -/
theorem subtract_exact (a b : Addr) (hf : IsV4 a ↔ IsV4 b) :
    ∃ d, addrSub a b = .ok d ∧ (value d : Int) = familyFirst a +
      ((value a : Int) - value b) % ((familyLast a : Int) - familyFirst a + 1) := by
  have : addrFamily a = addrFamily b := by
    rw [← isV4Mapped_iff, ← isV4Mapped_iff, ← Bool.eq_iff_iff] at hf
    unfold addrFamily
    rw [hf]
  obtain ⟨d, h1, h2⟩ := value_addrSub a b this
  exact ⟨d, h1, h2⟩

/-- C39: subtracting addresses of different families is refused. -/
theorem subtract_families (a b : Addr) (hf : ¬ (IsV4 a ↔ IsV4 b)) : addrSub a b = .error (.err EINVAL) := by
  have : addrFamily a ≠ addrFamily b := by
    intro e
    apply hf
    rw [← isV4Mapped_iff, ← isV4Mapped_iff, ← Bool.eq_iff_iff]
    unfold addrFamily at e
    cases h1 : isV4Mapped a <;> cases h2 : isV4Mapped b <;> simp_all
  unfold addrSub
  rw [if_pos this]

/-- 10.255.255.255 - 10.0.0.1 as a number -/
example : ∃ d, addrSub sample #v[0,0,0,0, 0,0,0,0, 0,0,0xff,0xff, 10,0,0,1] = .ok d ∧
    value d = 0xffff00fffffe := ⟨_, rfl, by decide⟩

/-! ### C42 -/

/-- C42: reading a bit. -/
theorem get_bit_exact (a : Addr) (i : Nat) (hi : i < 128) : getBit a i = bit a i := getBit_eq_bit a i hi

/-- C42: setting a bit changes that bit and no other. -/
theorem set_bit_exact (a : Addr) (i j : Nat) (hi : i < 128) (hj : j < 128) (v : Bool) :
    bit (setBit a i v) j = if i = j then v else bit a j := by
  rw [← getBit_eq_bit _ _ hj, ← getBit_eq_bit _ _ hj]
  exact getBit_setBit a i j v hi hj

example : bit sample 100 = true ∧ bit (setBit sample 100 false) 100 = false ∧
    bit (setBit sample 100 false) 102 = true := by decide

/-- C42: the common-bits helper returns the length of the longest common prefix of two addresses of
    one family, counted within the family. -/
theorem common_bits_exact (a b : Addr) (hf : IsV4 a ↔ IsV4 b) :
    ∃ c, commonBits a b = .ok c ∧ familyStart a + c ≤ 128 ∧ AgreeOn (familyStart a + c) a b ∧
      (familyStart a + c < 128 → ¬ AgreeOn (familyStart a + c + 1) a b) := by
  have hf' : isV4Mapped a = isV4Mapped b := by
    rw [← isV4Mapped_iff, ← isV4Mapped_iff, ← Bool.eq_iff_iff] at hf; exact hf
  have hfam : addrFamily a = addrFamily b := by unfold addrFamily; rw [hf']
  have hfs : familyStart a = famStart a := by
    unfold familyStart famStart
    have := isV4Mapped_iff a
    cases h : isV4Mapped a <;> simp_all
  rw [hfs]
  obtain ⟨c, h1, h2, h3, h4⟩ := commonBits_spec a b hfam
  refine ⟨c, h1, h2, (agreeOn_iff _ h2 a b).mpr h3, fun h5 h6 => ?_⟩
  exact h4 h5 ((agreeOn_iff _ (by omega) a b).mp h6 _ (by omega))

/-- 10.255.255.255 and 10.254.0.0 share 15 bits -/
example : commonBits sample #v[0,0,0,0, 0,0,0,0, 0,0,0xff,0xff, 10,254,0,0] = .ok 15 := by decide

/-- C42: the bit-length helper returns the position (within the family) just behind the last one bit,
    0 if there is none.  The compiler's `__builtin_ctz(0)` is undefined; the code is right whenever it
    returns at least 8 there (`ctz0`). -/
theorem bit_length_exact (ctz0 : Nat) (h0 : 8 ≤ ctz0) (a : Addr) :
    familyStart a + bitLength ctz0 a ≤ 128 ∧
    (∀ i, familyStart a + bitLength ctz0 a ≤ i → i < 128 → bit a i = false) ∧
    (0 < bitLength ctz0 a → bit a (familyStart a + bitLength ctz0 a - 1) = true) := by
  have hfs : familyStart a = famStart a := by
    unfold familyStart famStart
    have := isV4Mapped_iff a
    cases h : isV4Mapped a <;> simp_all
  rw [hfs]
  obtain ⟨h1, h2, h3⟩ := bitLength_spec ctz0 h0 a
  refine ⟨h1, fun i hi hlt => by rw [← getBit_eq_bit a i hlt]; exact h2 i hi hlt, fun h => ?_⟩
  rw [← getBit_eq_bit a _ (by omega)]
  exact h3 h

/-- bit length of 10.0.0.0 is 7 -/
example : bitLength 32 #v[0,0,0,0, 0,0,0,0, 0,0,0xff,0xff, 10,0,0,0] = 7 := by decide

/-- If `__builtin_ctz(0)` were smaller than 8 (the language allows any value) the helper would be
    wrong: with 0 it reports 32 bits for 10.0.0.0. -/
theorem bit_length_needs_ctz :
    bitLength 0 #v[0,0,0,0, 0,0,0,0, 0,0,0xff,0xff, 10,0,0,0] = 32 := by decide

end Loc.Props
