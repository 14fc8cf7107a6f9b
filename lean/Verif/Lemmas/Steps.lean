import Verif.Lemmas.Safe
/-
Rounds of the searches for ASes and countries.
-/
namespace Loc

theorem getAsLoop_rounds (db : Db) (number : BitVec 32) (k : Nat) : ∀ (lo hi : Int) (fuel : Nat), hi - lo + 1 < 2 ^ k → k + 1 ≤ fuel →
    getAsLoop db number fuel lo hi = getAsLoop db number (k + 1) lo hi := by
  induction k with
  | zero =>
    intro lo hi fuel h hf
    obtain ⟨fuel, rfl⟩ : ∃ m, fuel = m + 1 := ⟨fuel - 1, by omega⟩
    have hn : ¬ lo ≤ hi := by simp at h; omega
    simp only [getAsLoop, if_neg hn]
  | succ k ih =>
    intro lo hi fuel h hf
    obtain ⟨fuel, rfl⟩ : ∃ m, fuel = m + 1 := ⟨fuel - 1, by omega⟩
    have hp : (2 : Int) ^ (k + 1) = 2 ^ k * 2 := by rw [Int.pow_succ]
    rw [getAsLoop, getAsLoop]
    by_cases hn : lo ≤ hi
    · rw [if_pos hn, if_pos hn]
      simp only
      rw [ih ((lo + hi) / 2 + 1) hi fuel (by omega) (by omega), ih lo ((lo + hi) / 2 - 1) fuel (by omega) (by omega)]
    · rw [if_neg hn, if_neg hn]

theorem getCountryLoop_rounds (db : Db) (code : CStr) (k : Nat) : ∀ (lo hi : Int) (fuel : Nat), hi - lo + 1 < 2 ^ k → k + 1 ≤ fuel →
    getCountryLoop db code fuel lo hi = getCountryLoop db code (k + 1) lo hi := by
  induction k with
  | zero =>
    intro lo hi fuel h hf
    obtain ⟨fuel, rfl⟩ : ∃ m, fuel = m + 1 := ⟨fuel - 1, by omega⟩
    have hn : ¬ lo ≤ hi := by simp at h; omega
    simp only [getCountryLoop, if_neg hn]
  | succ k ih =>
    intro lo hi fuel h hf
    obtain ⟨fuel, rfl⟩ : ∃ m, fuel = m + 1 := ⟨fuel - 1, by omega⟩
    have hp : (2 : Int) ^ (k + 1) = 2 ^ k * 2 := by rw [Int.pow_succ]
    rw [getCountryLoop, getCountryLoop]
    by_cases hn : lo ≤ hi
    · rw [if_pos hn, if_pos hn]
      simp only
      rw [ih ((lo + hi) / 2 + 1) hi fuel (by omega) (by omega), ih lo ((lo + hi) / 2 - 1) fuel (by omega) (by omega)]
    · rw [if_neg hn, if_neg hn]

theorem pow_cast {n k : Nat} (h : n < 2 ^ k) : (n : Int) - 1 - 0 + 1 < 2 ^ k := by
  have : (n : Int) < ((2 ^ k : Nat) : Int) := Int.ofNat_lt.mpr h
  rw [Int.natCast_pow] at this
  have e : ((2 : Nat) : Int) = 2 := rfl
  rw [e] at this
  omega

theorem beFold_lt (l : Bytes) : ∀ acc : Nat, l.foldl (fun acc b => acc * 256 + b.toNat) acc < (acc + 1) * 256 ^ l.length := by
  induction l with
  | nil => intro acc; simp
  | cons x l ih =>
    intro acc
    have h1 := ih (acc * 256 + x.toNat)
    have h2 : x.toNat < 256 := x.isLt
    have h3 : (acc * 256 + x.toNat + 1) * 256 ^ l.length ≤ ((acc + 1) * 256) * 256 ^ l.length := Nat.mul_le_mul_right _ (by omega)
    rw [List.foldl_cons, List.length_cons, Nat.pow_succ, Nat.mul_comm (256 ^ l.length), ← Nat.mul_assoc]
    omega

theorem field_four (b : Bytes) (off : Nat) : field b off 4 < 2 ^ 32 := by
  unfold field
  have h : ((b.drop off).take 4).length ≤ 4 := by rw [List.length_take]; omega
  have h2 := beFold_lt ((b.drop off).take 4) 0
  unfold beVal
  have : (256 : Nat) ^ ((b.drop off).take 4).length ≤ 256 ^ 4 := Nat.pow_le_pow_right (by decide) h
  omega

theorem open_counts {f : Bytes} {db : Db} (h : dbOpen f = .ok db) : db.asCount < 2 ^ 29 ∧ db.countryCount < 2 ^ 29 := by
  unfold dbOpen at h
  split at h
  · cases h
  unfold readHeader at h
  split at h
  · cases h
  split at h
  · cases h
  rename_i b _
  split at h
  · cases h
  split at h
  · cases h
  split at h
  · cases h
  cases h
  have h1 := field_four b 24
  have h2 := field_four b 48
  simp only [asSize, countrySize]
  omega

end Loc
