import Verif.Lemmas.Stringpool
/-
C25: the string pool.
-/
namespace Loc.Props
open Loc

/-- A history of additions to a pool. -/
def addMany (p : Pool) : List CStr → Res Pool
  | [] => .ok p
  | s :: h =>
    match poolAdd p s with
    | .error e => .error e
    | .ok (_, p') => addMany p' h

theorem addMany_ok {p : Pool} {ss h : List CStr} (hp : PoolOk p ss) (hh : ∀ s ∈ h, NoNul s) {p' : Pool}
    (e : addMany p h = .ok p') : ∃ ss', PoolOk p' (ss ++ ss') := by
  induction h generalizing p ss with
  | nil => cases e; exact ⟨[], by simpa using hp⟩
  | cons s h ih =>
    unfold addMany at e
    rcases poolAdd_spec hp s (hh s (by simp)) with ⟨-, c, d, h1, -, h3⟩ | ⟨-, q, h1, -, -, h3⟩ | ⟨-, h3⟩
    · rw [h3] at e
      exact ih hp (fun x hx => hh x (by simp [hx])) e
    · rw [h3] at e
      obtain ⟨ss', h'⟩ := ih h1 (fun x hx => hh x (by simp [hx])) e
      exact ⟨s :: ss', by simpa using h'⟩
    · rw [h3] at e; cases e

theorem poolNew_ok : PoolOk poolNew [] := ⟨rfl, by simp⟩

/-- The offset returned for a string yields that string, now and after any further additions; adding
    the (non-empty) string again returns the same offset and leaves the pool as it is. -/
theorem pool_stable_partial {h1 h2 : List CStr} {s : CStr} (n1 : ∀ x ∈ h1, NoNul x) (n2 : ∀ x ∈ h2, NoNul x)
    (ns : NoNul s) {p1 p2 p3 : Pool} {off : Nat} (e1 : addMany poolNew h1 = .ok p1)
    (e2 : poolAdd p1 s = .ok (off, p2)) (e3 : addMany p2 h2 = .ok p3) :
    poolGet p2 off = .ok (some s) ∧ poolGet p3 off = .ok (some s) ∧
      (s ≠ [] → poolAdd p3 s = .ok (off, p3)) := by
  obtain ⟨ss, k1⟩ := addMany_ok poolNew_ok n1 e1
  rw [List.nil_append] at k1
  have key : ∃ c d, PoolOk p2 (c ++ s :: d) ∧ off = (joinStr c).length ∧ (s ≠ [] → s ∉ c) := by
    rcases poolAdd_spec k1 s ns with ⟨-, c, d, a1, a2, a3⟩ | ⟨hor, q, a1, -, -, a3⟩ | ⟨-, a3⟩
    · rw [a3] at e2; cases e2
      exact ⟨c, d, a1 ▸ k1, rfl, fun _ => a2⟩
    · rw [a3] at e2; cases e2
      exact ⟨ss, [], a1, rfl, fun hne => hor.resolve_left hne⟩
    · rw [a3] at e2; cases e2
  obtain ⟨c, d, k2, rfl, hc⟩ := key
  obtain ⟨ss', k3⟩ := addMany_ok k2 n2 e3
  have k3' : PoolOk p3 (c ++ s :: (d ++ ss')) := by simpa using k3
  refine ⟨poolGet_spec k2, poolGet_spec k3', ?_⟩
  intro hne
  rcases poolAdd_spec k3' s ns with ⟨-, c', d', a1, a2, a3⟩ | ⟨hor, -⟩ | ⟨hlen, a3⟩
  · have : c' = c := by
      have hcc := hc hne
      clear a3 e1 e2 e3 k1 k2 k3 k3'
      induction c generalizing c' with
      | nil =>
        cases c' with
        | nil => rfl
        | cons x c' => simp at a1; exact absurd a1.1 (by intro e; exact a2 (by simp [e]))
      | cons y c ih =>
        cases c' with
        | nil => simp at a1; exact absurd a1.1 (by intro e; exact hcc (by simp [e]))
        | cons x c' =>
          simp only [List.cons_append, List.cons.injEq] at a1
          rw [a1.1, ih (fun h => hc h |> fun hh hm => hh (by simp [hm])) c' a1.2 (fun hm => a2 (by simp [hm])) (fun hm => hcc (by simp [hm]))]
    rw [a3, this]
  · rcases hor with h | h
    · exact absurd h hne
    · exact absurd (by simp) h
  · exfalso
    have hf := poolFind_spec k3' s hne
    rcases hf with ⟨hf, -⟩ | ⟨c', d', -, -, hf⟩
    · exact hf (by simp)
    · unfold poolAdd at a3; rw [hf] at a3; cases a3

/-- Different strings get different offsets. -/
theorem pool_distinct {h1 h2 : List CStr} {s t : CStr} (n1 : ∀ x ∈ h1, NoNul x) (n2 : ∀ x ∈ h2, NoNul x)
    (ns : NoNul s) (nt : NoNul t) {p1 p2 p3 p4 : Pool} {o o' : Nat} (e1 : addMany poolNew h1 = .ok p1)
    (e2 : poolAdd p1 s = .ok (o, p2)) (e3 : addMany p2 h2 = .ok p3) (e4 : poolAdd p3 t = .ok (o', p4))
    (hne : s ≠ t) : o ≠ o' := by
  intro e
  have a1 := (pool_stable_partial (h2 := h2 ++ [t]) n1 (fun x hx => by
    rcases List.mem_append.mp hx with hx | hx
    · exact n2 x hx
    · simp at hx; subst hx; exact nt) ns e1 e2 (p3 := p4) (by
      have : ∀ (h : List CStr) (p q : Pool), addMany p h = .ok q → addMany p (h ++ [t]) = addMany q [t] := by
        intro h
        induction h with
        | nil => intro p q hq; cases hq; rfl
        | cons x h ih =>
          intro p q hq
          unfold addMany at hq
          rw [List.cons_append]
          conv => lhs; unfold addMany
          cases hx : poolAdd p x with
          | error err => rw [hx] at hq; cases hq
          | ok r => rw [hx] at hq; simp only; exact ih _ _ hq
      rw [this _ _ _ e3]
      unfold addMany
      rw [e4]; rfl)).2.1
  have a2 : poolGet p4 o' = .ok (some t) := by
    have e5 : addMany poolNew (h1 ++ s :: h2) = .ok p3 := by
      have : ∀ (h k : List CStr) (p q : Pool), addMany p h = .ok q → addMany p (h ++ k) = addMany q k := by
        intro h k
        induction h with
        | nil => intro p q hq; cases hq; rfl
        | cons x h ih =>
          intro p q hq
          unfold addMany at hq
          rw [List.cons_append]
          conv => lhs; unfold addMany
          cases hx : poolAdd p x with
          | error err => rw [hx] at hq; cases hq
          | ok r => rw [hx] at hq; simp only; exact ih _ _ hq
      rw [this _ _ _ _ e1]
      unfold addMany
      rw [e2]; exact e3
    refine (pool_stable_partial (h1 := h1 ++ s :: h2) (h2 := []) ?_ (by simp) nt e5 e4 rfl).1
    intro x hx
    rcases List.mem_append.mp hx with hx | hx
    · exact n1 x hx
    · rcases List.mem_cons.mp hx with rfl | hx
      · exact ns
      · exact n2 x hx
  rw [← e, a1] at a2
  cases a2
  exact hne rfl

/-- Additions succeed as long as every string (with its terminating NUL) fits into one block of
    512 KiB. -/
theorem pool_total_partial (h : List CStr) (hn : ∀ s ∈ h, NoNul s) (hl : ∀ s ∈ h, s.length + 1 ≤ 512 * 1024) :
    ∃ p, addMany poolNew h = .ok p := by
  have key : ∀ (h : List CStr), (∀ s ∈ h, NoNul s) → (∀ s ∈ h, s.length + 1 ≤ 512 * 1024) → ∀ (p : Pool) (ss : List CStr), PoolOk p ss → p.data.length ≤ p.size → ∃ q, addMany p h = .ok q := by
    intro h hn hl
    induction h with
    | nil => intro p ss _ _; exact ⟨p, rfl⟩
    | cons s h ih =>
      intro p ss hp hsz
      have ih' := ih (fun x hx => hn x (by simp [hx])) (fun x hx => hl x (by simp [hx]))
      unfold addMany
      rcases poolAdd_spec hp s (hn s (by simp)) with ⟨-, c, d, -, -, a3⟩ | ⟨-, q, a1, -, a2, a3⟩ | ⟨a1, -⟩
      · rw [a3]; exact ih' p ss hp hsz
      · rw [a3]; exact ih' q _ a1 (a2 hsz)
      · have := hl s (by simp)
        unfold poolBlock at a1
        omega
  exact key h hn hl poolNew [] poolNew_ok (by simp [poolNew])

/-- The full claim: every addition succeeds. -/
def PoolTotal : Prop := ∀ h : List CStr, (∀ s ∈ h, NoNul s) → ∃ p, addMany poolNew h = .ok p

/-- The first string added, if it has 512 KiB or more, is written over the end of the buffer. -/
theorem pool_overflow (s : CStr) (hn : NoNul s) (hl : 512 * 1024 ≤ s.length) :
    poolAdd poolNew s = .error .oob := by
  have h0 : s ≠ [] := by rintro rfl; simp at hl
  have hf : poolFind poolNew s = .ok none := by
    rcases poolFind_spec poolNew_ok s h0 with ⟨-, h⟩ | ⟨c, d, a, -⟩
    · exact h
    · exact absurd (congrArg List.length a) (by simp)
  unfold poolAdd
  rw [hf]
  simp only [poolAppend]
  have e : poolNew.data.length = 0 := rfl
  have e2 : poolNew.size = 0 := rfl
  rw [e, e2, if_pos]
  unfold poolBlock
  split <;> omega

/-- The code writes over the end of its buffer for a string of 512 KiB or more. -/
theorem pool_total_violated : ¬ PoolTotal := by
  intro h
  have hn : NoNul (List.replicate (512 * 1024) 65) := by
    intro hm
    exact absurd (List.eq_of_mem_replicate hm) (by decide)
  obtain ⟨p, hp⟩ := h [List.replicate (512 * 1024) 65] (by
    intro s hs
    rw [List.mem_singleton.mp hs]
    exact hn)
  unfold addMany at hp
  rw [pool_overflow _ hn (by rw [List.length_replicate]; exact Nat.le_refl _)] at hp
  cases hp

/-- "abc", "", "de", then "abc" again -/
example : ∃ p, addMany poolNew [[97, 98, 99], [], [100, 101]] = .ok p ∧
    poolAdd p [97, 98, 99] = .ok (0, p) ∧ (poolAdd p [100]).map (·.1) = .ok 8 ∧ poolGet p 5 = .ok (some [100, 101]) :=
  ⟨_, rfl, rfl, rfl, rfl⟩

end Loc.Props
