import Verif.Model.Database
import Verif.Lemmas.Stringpool
/-
Big-endian numbers, sections made of records of a fixed size, and reading them back.
-/
namespace Loc

@[simp] theorem length_be16 (n : Nat) : (be16 n).length = 2 := rfl
@[simp] theorem length_be32 (n : Nat) : (be32 n).length = 4 := rfl
@[simp] theorem length_be64 (n : Nat) : (be64 n).length = 8 := rfl

theorem beVal_be16 (n : Nat) : beVal (be16 n) = n % 2 ^ 16 := by
  simp only [beVal, be16, List.foldl_cons, List.foldl_nil, BitVec.toNat_ofNat]
  omega

theorem beVal_be32 (n : Nat) : beVal (be32 n) = n % 2 ^ 32 := by
  simp only [beVal, be32, List.foldl_cons, List.foldl_nil, BitVec.toNat_ofNat]
  omega

theorem beVal_be64 (n : Nat) : beVal (be64 n) = n % 2 ^ 64 := by
  simp only [beVal, be64, be32, List.cons_append, List.nil_append, List.foldl_cons, List.foldl_nil, BitVec.toNat_ofNat]
  omega

/-- A field behind `pre`. -/
theorem field_at (pre x post : Bytes) (off len : Nat) (ho : pre.length = off) (hl : x.length = len) :
    field (pre ++ (x ++ post)) off len = beVal x := by
  subst ho hl
  simp [field]

theorem rd_at (pre x post : Bytes) (off len : Nat) (ho : pre.length = off) (hl : x.length = len) :
    rd (pre ++ (x ++ post)) off len = .ok x := by
  subst ho hl
  unfold rd
  rw [if_pos (by simp)]
  simp

theorem checkBoundaries_iff {fl off len : Nat} (hf : fl < 2 ^ 64) (hl : len ≤ fl) :
    checkBoundaries fl off len = true ↔ off + len ≤ fl := by
  unfold checkBoundaries
  rw [decide_eq_true_iff]
  have : (fl + 2 ^ 64 - len) % 2 ^ 64 = fl - len := by omega
  rw [this]
  omega

/-- Records of `k` bytes each. -/
def Records (k : Nat) (recs : List Bytes) : Prop := ∀ r ∈ recs, r.length = k

theorem records_length {k : Nat} {recs : List Bytes} (h : Records k recs) : recs.flatten.length = recs.length * k := by
  induction recs with
  | nil => simp
  | cons r recs ih =>
    rw [List.flatten_cons, List.length_append, ih (fun x hx => h x (List.mem_cons_of_mem _ hx)), h r List.mem_cons_self,
      List.length_cons, Nat.add_mul]
    omega

theorem records_split {k : Nat} {recs : List Bytes} (h : Records k recs) {i : Nat} (hi : i < recs.length) :
    ∃ a b, recs.flatten = a ++ (recs[i] ++ b) ∧ a.length = i * k := by
  refine ⟨(recs.take i).flatten, (recs.drop (i + 1)).flatten, ?_, ?_⟩
  · conv => lhs; rw [← List.take_append_drop i recs]
    rw [List.flatten_append]
    congr 1
    rw [List.drop_eq_getElem_cons hi, List.flatten_cons]
  · rw [records_length (k := k)]
    · rw [List.length_take]
      congr 1
      omega
    · intro x hx; exact h x (List.mem_of_mem_take hx)

/-- Reading the i-th object of a section. -/
theorem dbObject_at {k : Nat} {recs : List Bytes} (h : Records k recs) (pre post : Bytes)
    (hsmall : (pre ++ (recs.flatten ++ post)).length < 2 ^ 64) {i : Nat} (hi : i < recs.length) :
    dbObject (pre ++ (recs.flatten ++ post)) pre.length k i = .ok (some recs[i]) := by
  obtain ⟨a, b, hab, ha⟩ := records_split h hi
  have hk : recs[i].length = k := h _ (List.getElem_mem hi)
  have hl : (pre ++ (recs.flatten ++ post)).length = pre.length + (a.length + (k + b.length) + post.length) := by
    rw [hab]; simp [hk]; omega
  unfold dbObject
  rw [if_neg]
  · have : pre ++ (recs.flatten ++ post) = (pre ++ a) ++ (recs[i] ++ (b ++ post)) := by
      rw [hab]; simp
    rw [this, rd_at _ _ _ _ _ (by simp [ha]) hk]
  · rw [Bool.not_eq_true', Bool.not_eq_false]
    rw [checkBoundaries_iff hsmall (by rw [hl]; omega), hl]
    omega

/-- The string at offset `off` of a pool built from `ss`. -/
def At (ss : List CStr) (off : Nat) (s : CStr) : Prop := ∃ a b, ss = a ++ s :: b ∧ off = (joinStr a).length

theorem At.append {ss : List CStr} {off : Nat} {s : CStr} (h : At ss off s) (ss' : List CStr) : At (ss ++ ss') off s := by
  obtain ⟨a, b, rfl, rfl⟩ := h
  exact ⟨a, b ++ ss', by simp, rfl⟩

theorem At.lt {ss : List CStr} {off : Nat} {s : CStr} (h : At ss off s) : off + s.length < (joinStr ss).length := by
  obtain ⟨a, b, rfl, rfl⟩ := h
  rw [joinStr_append, joinStr_cons]
  simp

/-- Adding to a pool, in one statement. -/
theorem poolAdd_ext {p : Pool} {ss : List CStr} (h : PoolOk p ss) {s : CStr} (hs : NoNul s) {off : Nat} {p' : Pool}
    (e : poolAdd p s = .ok (off, p')) : ∃ ss', PoolOk p' (ss ++ ss') ∧ At (ss ++ ss') off s := by
  rcases poolAdd_spec h s hs with ⟨-, c, d, h1, -, h3⟩ | ⟨-, q, h1, -, -, h3⟩ | ⟨-, h3⟩
  · rw [h3] at e; cases e
    exact ⟨[], by simpa using h, c, d, by simp [h1], rfl⟩
  · rw [h3] at e; cases e
    exact ⟨[s], h1, ss, [], rfl, rfl⟩
  · rw [h3] at e; cases e

/-- Reading a string of the pool of a file. -/
theorem dbString_at {db : Db} {ss : List CStr} (hn : ∀ s ∈ ss, NoNul s) {pre post : Bytes}
    (hf : db.file = pre ++ (joinStr ss ++ post)) (ho : db.poolOff = pre.length) (hl : db.poolLen = (joinStr ss).length)
    {off : Nat} {s : CStr} (h : At ss off s) : dbString db off = .ok (some s) := by
  have hlt := h.lt
  obtain ⟨a, b, rfl, rfl⟩ := h
  unfold dbString
  rw [if_neg (by rw [hl]; omega)]
  have e : db.file = (pre ++ joinStr a) ++ (s ++ 0 :: (joinStr b ++ post)) := by
    rw [hf, joinStr_append, joinStr_cons]; simp
  rw [e, ho]
  have : pre.length + (joinStr a).length = (pre ++ joinStr a).length := by simp
  rw [this, cstrAt_spec (hn s (by simp))]

end Loc
