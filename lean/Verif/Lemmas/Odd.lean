import Verif.Lemmas.ExcludeList
/-
Helper lemmas connecting the specification vocabulary (inclusion, odd blocks, country codes) to the
bit-string view used in the proofs.
-/
namespace Loc
open Spec

theorem LeftOf.before {m n : Network} (hm : Block m) (h : value m.last < value n.first) : Before m n := by
  have := hm.last_eq
  unfold Before; omega

theorem natOfBits_fffe : natOfBits (List.replicate 80 false ++ List.replicate 15 true) = 0x7fff := by
  decide +kernel

theorem setCountryCode_cases {n n' : Network} {cc : Option CStr} (h : setCountryCode n cc = .ok n') :
    ((cc = none ∨ cc = some []) ∧ n' = { n with cc0 := 0 }) ∨
    (∃ c0 c1, cc = some [c0, c1] ∧ ValidCC [c0, c1] ∧ n' = { n with cc0 := c0, cc1 := c1 }) := by
  match cc with
  | none => left; cases h; exact ⟨.inl rfl, rfl⟩
  | some [] => left; cases h; exact ⟨.inr rfl, rfl⟩
  | some (x :: xs) =>
    right
    have e : setCountryCode n (some (x :: xs)) = if !ccIsValid (some (x :: xs)) then .error (.err EINVAL)
      else match (x :: xs) with
      | [c0, c1] => .ok { n with cc0 := c0, cc1 := c1 }
      | _ => .error (.err EINVAL) := rfl
    rw [e] at h
    by_cases hv : ccIsValid (some (x :: xs)) = true
    · have hvc := (ccIsValid_iff (x :: xs)).mp hv
      rw [if_neg (by simp [hv])] at h
      obtain ⟨c0, c1, hc, hr⟩ := id hvc
      rw [hc] at h
      cases h
      exact ⟨c0, c1, by rw [hc], by rw [← hc]; exact hvc, rfl⟩
    · rw [if_pos (by simpa using hv)] at h
      cases h

theorem inside_iff_path {m n : Network} (hm : Block m) (hn : Block n) : Inside m n ↔ path n <+: path m :=
  (path_prefix_iff hn hm).symm

theorem oddBlock_iff {n : Network} (hb : Block n) : OddBlock n ↔ unsplittable (path n) := by
  have hl := length_path hb.le
  have hv := natOfBits_path hb
  constructor
  · rintro (⟨h1, h2⟩ | ⟨h1, h2⟩)
    · left
      apply natOfBits_inj
      · rw [hl, h2]; rfl
      · rw [h1, h2] at hv
        have : natOfBits (List.replicate 79 false) = 0 := natOfBits_replicate_false 79
        rw [this]; omega
    · right
      apply natOfBits_inj
      · rw [hl, h2]; rfl
      · rw [h1, h2] at hv
        have : natOfBits (List.replicate 80 false ++ List.replicate 15 true) = 0x7fff := natOfBits_fffe
        rw [this]; omega
  · rintro (h | h)
    · left
      have hp : n.pfx = 79 := by rw [← hl, h]; rfl
      refine ⟨?_, hp⟩
      rw [hv, h, natOfBits_replicate_false]; simp
    · right
      have hp : n.pfx = 95 := by rw [← hl, h]; rfl
      refine ⟨?_, hp⟩
      have : natOfBits (List.replicate 80 false ++ List.replicate 15 true) = 0x7fff := natOfBits_fffe
      rw [hv, h, hp, this]; decide

theorem splittable_iff {n o : Network} (hn : Block n) (ho : Block o) (hp : path n <+: path o) :
    Splittable (path n) (path o) ↔ ¬ CutsOddBlock n o := by
  have hln := length_path hn.le
  have hlo := length_path ho.le
  have hole := ho.le
  -- the odd block of length `k` lies between `n` and `o`
  have key : ∀ w : List Bool, w.length ≤ 128 →
      ((path n <+: w ∧ w <+: path o ∧ w ≠ path o) ↔
        n.pfx ≤ w.length ∧ w.length < o.pfx ∧ value o.first / 2 ^ (128 - w.length) = natOfBits w) := by
    intro w hw
    have hob := (contains_iff_path ho _).mp (first_contains ho)
    constructor
    · rintro ⟨h1, h2, h3⟩
      have l1 := h1.length_le
      have l2 := h2.length_le
      have l3 : w.length ≠ (path o).length := fun e => h3 (h2.eq_of_length e)
      refine ⟨by omega, by omega, ?_⟩
      exact ((isPrefix_bits_iff w o.first hw).mp (h2.trans hob)).symm
    · rintro ⟨h1, h2, h3⟩
      have hwb := (isPrefix_bits_iff w o.first hw).mpr h3.symm
      have h2' : w <+: path o := by
        rcases prefix_or_prefix hwb hob with h | h
        · exact h
        · have := h.length_le; omega
      refine ⟨?_, h2', ?_⟩
      · rcases prefix_or_prefix hp h2' with h | h
        · exact h
        · rw [h.eq_of_length (by have := h.length_le; omega)]
          exact List.prefix_refl _
      · intro e; rw [e] at h2; omega
  have k79 := key (List.replicate 79 false) (by decide)
  have k95 := key (List.replicate 80 false ++ List.replicate 15 true) (by decide)
  have v95 : natOfBits (List.replicate 80 false ++ List.replicate 15 true) = 0x7fff := natOfBits_fffe
  have l79 : (List.replicate 79 false).length = 79 := by decide
  have l95 : (List.replicate 80 false ++ List.replicate 15 true).length = 95 := by decide
  rw [l79, natOfBits_replicate_false] at k79
  rw [l95, v95] at k95
  unfold Splittable CutsOddBlock unsplittable
  constructor
  · rintro h (⟨h1, h2, h3⟩ | ⟨h1, h2, h3⟩)
    · obtain ⟨g1, g2, g3⟩ := k79.mpr ⟨h1, h2, by rw [Nat.div_eq_zero_iff]; right; exact h3⟩
      exact h _ g1 g2 g3 (.inl rfl)
    · obtain ⟨g1, g2, g3⟩ := k95.mpr ⟨h1, h2, h3⟩
      exact h _ g1 g2 g3 (.inr rfl)
  · rintro h w h1 h2 h3 (rfl | rfl)
    · obtain ⟨g1, g2, g3⟩ := k79.mp ⟨h1, h2, h3⟩
      apply h
      left
      refine ⟨g1, g2, ?_⟩
      rw [Nat.div_eq_zero_iff] at g3
      rcases g3 with g3 | g3
      · exact absurd g3 (by decide)
      · exact g3
    · obtain ⟨g1, g2, g3⟩ := k95.mp ⟨h1, h2, h3⟩
      exact h (.inr ⟨g1, g2, g3⟩)

theorem special_not_valid (c : CStr) (h : ValidCC c) : specialCodeToFlag (some c) = 0 := by
  obtain ⟨c0, c1, rfl, h1, h2, h3, h4, h5⟩ := h
  have : ∀ c0 c1 : Byte, 65 ≤ c1.toNat → c0.toNat ≠ 88 → specialCodeToFlag (some [c0, c1]) = 0 := by
    intro c0 c1 h1 h2
    unfold specialCodeToFlag specialCountries
    have e1 : (([65, 49] : CStr) == [c0, c1]) = false := by
      simp only [beq_eq_false_iff_ne, ne_eq, List.cons.injEq, and_true, not_and]
      intro _ h; subst h; simp at h1
    have e2 : (([65, 50] : CStr) == [c0, c1]) = false := by
      simp only [beq_eq_false_iff_ne, ne_eq, List.cons.injEq, and_true, not_and]
      intro _ h; subst h; simp at h1
    have e3 : (([65, 51] : CStr) == [c0, c1]) = false := by
      simp only [beq_eq_false_iff_ne, ne_eq, List.cons.injEq, and_true, not_and]
      intro _ h; subst h; simp at h1
    have e4 : (([88, 68] : CStr) == [c0, c1]) = false := by
      simp only [beq_eq_false_iff_ne, ne_eq, List.cons.injEq, and_true, not_and]
      intro h; subst h; simp at h2
    simp only [List.take_succ_cons, List.take_zero, List.find?, e1, e2, e3, e4]
  exact this c0 c1 h3 h5

end Loc
