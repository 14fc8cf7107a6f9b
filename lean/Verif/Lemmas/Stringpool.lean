import Verif.Model.Stringpool
/-
The string pool is a concatenation of NUL-terminated strings.
-/
namespace Loc

def joinStr (ss : List CStr) : Bytes := ss.flatMap (fun s => s ++ [0])

theorem joinStr_append (a b : List CStr) : joinStr (a ++ b) = joinStr a ++ joinStr b := by
  simp [joinStr]

theorem joinStr_cons (s : CStr) (b : List CStr) : joinStr (s :: b) = s ++ 0 :: joinStr b := by
  simp [joinStr]

def NoNul (s : CStr) : Prop := (0 : Byte) ∉ s

instance (s : CStr) : Decidable (NoNul s) := inferInstanceAs (Decidable (¬ _))

theorem takeWhile_nul {s : CStr} (h : NoNul s) (post : Bytes) :
    (s ++ 0 :: post).takeWhile (· != 0) = s := by
  induction s with
  | nil => simp
  | cons b s ih =>
    have hb : b ≠ 0 := by rintro rfl; exact h List.mem_cons_self
    have hs : NoNul s := fun hm => h (List.mem_cons_of_mem _ hm)
    simp only [List.cons_append, List.takeWhile_cons]
    rw [if_pos (bne_iff_ne.mpr hb), ih hs]

theorem cstrAt_spec {s : CStr} (h : NoNul s) (pre post : Bytes) :
    cstrAt (pre ++ (s ++ 0 :: post)) pre.length = .ok s := by
  unfold cstrAt
  rw [List.drop_left]
  simp only [takeWhile_nul h]
  rw [if_pos]
  simp

structure PoolOk (p : Pool) (ss : List CStr) : Prop where
  data : p.data = joinStr ss
  nul : ∀ s ∈ ss, NoNul s

theorem poolGet_spec {p : Pool} {a b : List CStr} {s : CStr} (h : PoolOk p (a ++ s :: b)) :
    poolGet p (joinStr a).length = .ok (some s) := by
  have hd := h.data
  rw [joinStr_append, joinStr_cons] at hd
  unfold poolGet
  rw [hd, if_neg (by simp; omega)]
  rw [cstrAt_spec (h.nul s (by simp))]

theorem poolFindLoop_spec {p : Pool} (s : CStr) (fuel : Nat) : ∀ (b a : List CStr), PoolOk p (a ++ b) →
    b.length < fuel →
    (s ∉ b ∧ poolFindLoop p s (joinStr a).length fuel = .ok none) ∨
    (∃ c d, b = c ++ s :: d ∧ s ∉ c ∧ poolFindLoop p s (joinStr a).length fuel = .ok (some (joinStr (a ++ c)).length)) := by
  induction fuel with
  | zero => intro b a _ h; omega
  | succ fuel ih =>
    intro b a h hf
    cases b with
    | nil =>
      left
      refine ⟨by simp, ?_⟩
      unfold poolFindLoop
      rw [h.data, List.append_nil, if_neg (by omega)]
    | cons t b =>
      unfold poolFindLoop
      have hlt : (joinStr a).length < p.data.length := by
        rw [h.data, joinStr_append, joinStr_cons]; simp; omega
      rw [if_pos hlt, poolGet_spec h]
      simp only
      by_cases hst : s = t
      · subst hst
        right
        rw [if_pos rfl]
        exact ⟨[], b, rfl, by simp, by simp⟩
      · rw [if_neg hst]
        have e : (joinStr a).length + t.length + 1 = (joinStr (a ++ [t])).length := by
          rw [joinStr_append]; simp [joinStr]; omega
        rw [e]
        rcases ih b (a ++ [t]) (by simpa using h) (by simp at hf; omega) with ⟨h1, h2⟩ | ⟨c, d, h1, h2, h3⟩
        · exact .inl ⟨by simp [hst, h1], h2⟩
        · refine .inr ⟨t :: c, d, by simp [h1], by simp [hst, h2], ?_⟩
          rw [h3]; simp

theorem joinStr_length_ge (ss : List CStr) : ss.length ≤ (joinStr ss).length := by
  induction ss with
  | nil => simp
  | cons s ss ih => rw [joinStr_cons]; simp; omega

theorem poolFind_spec {p : Pool} {ss : List CStr} (h : PoolOk p ss) (s : CStr) (hs : s ≠ []) :
    (s ∉ ss ∧ poolFind p s = .ok none) ∨
    (∃ c d, ss = c ++ s :: d ∧ s ∉ c ∧ poolFind p s = .ok (some (joinStr c).length)) := by
  unfold poolFind
  rw [if_neg hs]
  have := poolFindLoop_spec s (p.data.length + 1) ss [] (by simpa using h) (by
    rw [h.data]; have := joinStr_length_ge ss; omega)
  simpa [joinStr] using this

/-- Adding a string: found (the pool is unchanged), appended, or too long for one block. -/
theorem poolAdd_spec {p : Pool} {ss : List CStr} (h : PoolOk p ss) (s : CStr) (hs : NoNul s) :
    (s ≠ [] ∧ ∃ c d, ss = c ++ s :: d ∧ s ∉ c ∧ poolAdd p s = .ok ((joinStr c).length, p)) ∨
    ((s = [] ∨ s ∉ ss) ∧ ∃ p', PoolOk p' (ss ++ [s]) ∧ p'.data.length = p.data.length + s.length + 1 ∧
      (p.data.length ≤ p.size → p'.data.length ≤ p'.size) ∧
      poolAdd p s = .ok ((joinStr ss).length, p')) ∨
    (p.size + poolBlock < p.data.length + (s.length + 1) ∧ poolAdd p s = .error .oob) := by
  have happ : poolFind p s = .ok none → (s = [] ∨ s ∉ ss) → ((s = [] ∨ s ∉ ss) ∧ ∃ p', PoolOk p' (ss ++ [s]) ∧
      p'.data.length = p.data.length + s.length + 1 ∧
      (p.data.length ≤ p.size → p'.data.length ≤ p'.size) ∧ poolAdd p s = .ok ((joinStr ss).length, p')) ∨
    (p.size + poolBlock < p.data.length + (s.length + 1) ∧ poolAdd p s = .error .oob) := by
    intro hf hor
    unfold poolAdd
    rw [hf]
    simp only
    unfold poolAppend
    simp only
    generalize hsz : (if p.data.length + (s.length + 1) > p.size then p.size + poolBlock else p.size) = size
    by_cases hover : p.data.length + (s.length + 1) > size
    · right
      rw [if_pos hover]
      refine ⟨?_, rfl⟩
      split at hsz <;> omega
    · left
      rw [if_neg hover]
      refine ⟨hor, ⟨p.data ++ s ++ [0], size⟩, ⟨?_, ?_⟩, ?_, ?_, ?_⟩
      · rw [joinStr_append, ← h.data]; simp [joinStr]
      · intro x hx
        rcases List.mem_append.mp hx with hx | hx
        · exact h.nul x hx
        · simp at hx; subst hx; exact hs
      · simp; omega
      · intro _; simp; omega
      · rw [h.data]
  by_cases he : s = []
  · right
    refine happ ?_ (.inl he)
    simp [poolFind, he]
  · rcases poolFind_spec h s he with ⟨h1, h2⟩ | ⟨c, d, h1, h2, h3⟩
    · right; exact happ h2 (.inr h1)
    · left
      refine ⟨he, c, d, h1, h2, ?_⟩
      unfold poolAdd; rw [h3]

end Loc
