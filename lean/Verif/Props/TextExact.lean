import Verif.Props.Text
import Verif.Spec.Number
/-
C33: what the text behind the slash means, for all strings.
-/
namespace Loc.Props
open Loc Loc.Spec

theorem isSpace_iff (c : Byte) : isSpace c = true ↔ IsWhite c := by
  unfold isSpace IsWhite
  simp

theorem decVal_none (c : Byte) : decVal c = none ↔ ¬ IsDecimal c := by
  unfold decVal IsDecimal
  by_cases h : 48 ≤ c.toNat ∧ c.toNat ≤ 57
  · rw [if_pos h]
    exact ⟨(fun h => by cases h), fun hn => absurd h hn⟩
  · rw [if_neg h]
    exact ⟨fun _ => h, fun _ => rfl⟩

theorem digitsVal_rest {rest : CStr} (h : ∀ c, rest.head? = some c → ¬ IsDecimal c) (acc : Nat) : digitsVal acc rest = acc := by
  cases rest with
  | nil => rfl
  | cons c rest =>
    rw [digitsVal, (decVal_none c).mpr (h c rfl)]

theorem digitsVal_app {ds rest : CStr} {k : Nat} (hd : (ds = [] ∧ k = 0) ∨ Digits k ds) (h : ∀ c, rest.head? = some c → ¬ IsDecimal c) :
    digitsVal 0 (ds ++ rest) = k := by
  rcases hd with ⟨rfl, rfl⟩ | ⟨l, h1, h2, -, h4⟩
  · exact digitsVal_rest h 0
  · have h5 := digits_dec.mp ⟨h1, h2⟩
    have key : ∀ (ds : CStr) (l : List Nat) (acc : Nat), ds.map decVal = l.map some → digitsVal acc (ds ++ rest) = more 10 acc l := by
      intro ds
      induction ds with
      | nil =>
        intro l acc hl
        cases l with
        | nil => exact digitsVal_rest h acc
        | cons => simp at hl
      | cons c ds ih =>
        intro l acc hl
        cases l with
        | nil => simp at hl
        | cons d l =>
          simp only [List.map_cons, List.cons.injEq] at hl
          rw [List.cons_append, digitsVal, hl.1]
          exact ih l _ hl.2
    rw [key ds l 0 h5]
    exact h4

theorem digits_head {k : Nat} {ds : CStr} (h : Digits k ds) : ∃ c l, ds = c :: l ∧ isSpace c = false ∧ c ≠ 45 ∧ c ≠ 43 := by
  obtain ⟨l, h1, h2, h3, -⟩ := h
  have h5 := digits_dec.mp ⟨h1, h2⟩
  cases ds with
  | nil =>
    cases l with
    | nil => exact absurd rfl h3
    | cons => simp at h5
  | cons c ds =>
    cases l with
    | nil => simp at h5
    | cons d l =>
      simp only [List.map_cons, List.cons.injEq] at h5
      exact ⟨c, ds, rfl, digit_char c (by rw [h5.1]; simp)⟩

theorem dropWhile_white {white s : CStr} (h : ∀ c ∈ white, IsWhite c) : (white ++ s).dropWhile isSpace = s.dropWhile isSpace := by
  rw [List.dropWhile_append_of_pos fun c hc => (isSpace_iff c).mpr (h c hc)]

theorem dropWhile_stop {s : CStr} (h : ∀ c, s.head? = some c → isSpace c = false) : s.dropWhile isSpace = s := by
  cases s with
  | nil => rfl
  | cons c s => rw [List.dropWhile_cons_of_neg (by rw [h c rfl]; decide)]

theorem strtol_begins {s : CStr} {v : Int} (h : BeginsWith s v) : strtol s = nearestLong v := by
  obtain ⟨white, sign, ds, rest, k, rfl, hw, hs, hd, hr, hn, rfl⟩ := h
  have hval := digitsVal_app hd hr
  unfold strtol
  rw [dropWhile_white hw]
  rcases hs with rfl | rfl | rfl
  · rw [List.nil_append]
    rw [if_neg (by decide)]
    cases hds : ds with
    | nil =>
      subst hds
      rw [List.nil_append] at hval ⊢
      have hk : k = 0 := by
        rcases hd with ⟨-, h⟩ | h
        · exact h
        · obtain ⟨c, l, h1, -⟩ := digits_head h
          cases h1
      rw [dropWhile_stop fun c hc => by
        have := (hn rfl rfl c hc).1
        cases hsp : isSpace c with
        | false => rfl
        | true => exact absurd ((isSpace_iff c).mp hsp) this]
      cases rest with
      | nil =>
        subst hk
        rfl
      | cons c rest =>
        obtain ⟨-, h43, h45⟩ := hn rfl rfl c rfl
        simp only [beq_iff_eq, h43, h45, ↓reduceIte]
        rw [hval, hk]
        rfl
    | cons c l =>
      subst hds
      rcases hd with ⟨h, -⟩ | h
      · cases h
      · obtain ⟨c', l', he, h1, h2, h3⟩ := digits_head h
        cases he
        rw [dropWhile_stop (fun x hx => by cases hx; exact h1)]
        rw [List.cons_append] at hval ⊢
        simp only [beq_iff_eq, h2, h3, ↓reduceIte]
        rw [hval]
        unfold nearestLong
        (repeat split) <;> omega
  · rw [dropWhile_stop (fun x hx => by cases hx; decide)]
    rw [if_neg (by decide)]
    show min ((digitsVal 0 (ds ++ rest) : Nat) : Int) (2 ^ 63 - 1) = _
    rw [hval]
    unfold nearestLong
    (repeat split) <;> omega
  · rw [dropWhile_stop (fun x hx => by cases hx; decide)]
    rw [if_pos rfl]
    show max (-((digitsVal 0 (ds ++ rest) : Nat) : Int)) (-(2 ^ 63)) = _
    rw [hval]
    unfold nearestLong
    (repeat split) <;> omega

/-- Every text begins with some number. -/
theorem begins_with_some (s : CStr) : ∃ v, BeginsWith s v := by
  have key : ∀ s : CStr, ∃ (ds rest : CStr) (k : Nat), s = ds ++ rest ∧ ((ds = [] ∧ k = 0) ∨ Digits k ds) ∧ (∀ c, rest.head? = some c → ¬ IsDecimal c) := by
    intro s
    have hex : ∃ (ds rest : CStr) (l : List Nat), s = ds ++ rest ∧ ds.map decVal = l.map some ∧ (∀ c, rest.head? = some c → ¬ IsDecimal c) := by
      induction s with
      | nil => exact ⟨[], [], [], rfl, rfl, fun c h => by cases h⟩
      | cons c s ih =>
        cases hc : decVal c with
        | none => exact ⟨[], c :: s, [], rfl, rfl, fun x hx => by cases hx; exact (decVal_none c).mp hc⟩
        | some d =>
          obtain ⟨ds, rest, l, h1, h2, h3⟩ := ih
          exact ⟨c :: ds, rest, d :: l, by rw [h1]; rfl, by rw [List.map_cons, List.map_cons, hc, h2], h3⟩
    obtain ⟨ds, rest, l, h1, h2, h3⟩ := hex
    cases l with
    | nil =>
      refine ⟨ds, rest, 0, h1, Or.inl ⟨?_, rfl⟩, h3⟩
      cases ds with
      | nil => rfl
      | cons => simp at h2
    | cons d l =>
      have := digits_dec.mpr h2
      exact ⟨ds, rest, _, h1, Or.inr ⟨d :: l, this.1, this.2, List.cons_ne_nil _ _, rfl⟩, h3⟩
  have hsplit : s = s.takeWhile isSpace ++ s.dropWhile isSpace := List.takeWhile_append_dropWhile.symm
  have hwhite : ∀ c ∈ s.takeWhile isSpace, IsWhite c := fun c hc => (isSpace_iff c).mp (List.all_takeWhile .. |> (List.all_eq_true.mp · c hc))
  cases hdrop : s.dropWhile isSpace with
  | nil =>
    refine ⟨0, s.takeWhile isSpace, [], [], [], 0, by rw [hdrop] at hsplit; exact hsplit, hwhite, Or.inl rfl, Or.inl ⟨rfl, rfl⟩, (fun c h => by cases h),
      (fun _ _ c h => by cases h), rfl⟩
  | cons c t =>
    have hc : ¬ IsWhite c := by
      intro hw
      have h1 := List.head?_dropWhile_not isSpace s
      rw [hdrop] at h1
      simp only [List.head?_cons] at h1
      rw [(isSpace_iff c).mpr hw] at h1
      cases h1
    rw [hdrop] at hsplit
    by_cases h43 : c = 43
    · obtain ⟨ds, rest, k, h1, h2, h3⟩ := key t
      exact ⟨_, s.takeWhile isSpace, [43], ds, rest, k, by rw [← h1, ← h43]; exact hsplit, hwhite, Or.inr (Or.inl rfl), h2, h3, (fun h => by cases h), rfl⟩
    · by_cases h45 : c = 45
      · obtain ⟨ds, rest, k, h1, h2, h3⟩ := key t
        exact ⟨_, s.takeWhile isSpace, [45], ds, rest, k, by rw [← h1, ← h45]; exact hsplit, hwhite, Or.inr (Or.inr rfl), h2, h3, (fun h => by cases h), rfl⟩
      · obtain ⟨ds, rest, k, h1, h2, h3⟩ := key (c :: t)
        refine ⟨_, s.takeWhile isSpace, [], ds, rest, k, by rw [List.nil_append, ← h1]; exact hsplit, hwhite, Or.inl rfl, h2, h3, ?_, rfl⟩
        intro _ hds x hx
        rw [hds, List.nil_append] at h1
        rw [← h1] at hx
        cases hx
        exact ⟨hc, h43, h45⟩

/-- C33, for all strings with a slash: only the first 48 characters count; the number with which the rest of them begins
    (`begins_with_some`: there always is one) is brought into the range of a `long`, and the prefix is the remainder modulo
    2^32; it is refused if it is above the largest prefix. -/
theorem parse_prefix_exact (t rest : CStr) (ht : 47 ∉ t) {v : Int} (hv : BeginsWith (rest.take (47 - t.length)) v) (a : Addr) (p : Nat) :
    addressParse true (some (t ++ 47 :: rest)) = .ok (a, some p) ↔
      Denotes t a ∧ (p : Int) = nearestLong v % 2 ^ 32 ∧ ∃ m, LargestPrefix t m ∧ p ≤ m := by
  unfold addressParse
  simp only
  rw [parseText_buffer, (slash_split (d := rest) ht).1, ← parseText_iff]
  cases hp : parseText t with
  | none => simp
  | some r =>
    obtain ⟨b, f⟩ := r
    have hl := parseText_length hp
    have htake : (t ++ 47 :: rest).take 48 = t ++ 47 :: rest.take (47 - t.length) := by
      rw [List.take_append, List.take_of_length_le (by omega), show 48 - t.length = (47 - t.length) + 1 by omega, List.take_succ_cons]
    rw [htake, (slash_split ht).2]
    have hu : ((toUInt (strtol (rest.take (47 - t.length))) : Nat) : Int) = nearestLong v % 2 ^ 32 := by
      rw [strtol_begins hv]
      unfold toUInt
      have := Int.emod_nonneg (nearestLong v) (show (2 ^ 32 : Int) ≠ 0 by decide)
      omega
    simp only [List.tail?_cons, Bool.not_true, Bool.false_eq_true, ↓reduceIte, parseText_largest hp, exists_eq_left]
    by_cases hm : toUInt (strtol (rest.take (47 - t.length))) > familyBitLength f
    · rw [if_pos hm]
      constructor
      · intro h
        cases h
      · rintro ⟨-, h1, h2⟩
        omega
    · rw [if_neg hm]
      simp only [Except.ok.injEq, Prod.mk.injEq, Option.some.injEq]
      constructor
      · rintro ⟨rfl, rfl⟩
        exact ⟨⟨f, rfl, rfl⟩, hu, by omega⟩
      · rintro ⟨⟨_, h, _⟩, h1, _⟩
        exact ⟨h, by omega⟩

/-- "10.0.0.0/ -4294967288z" has prefix 8. -/
example : BeginsWith ([32, 45, 52, 50, 57, 52, 57, 54, 55, 50, 56, 56, 122] : CStr) (-4294967288) ∧
    addressParse true (some (ten ++ 47 :: [32, 45, 52, 50, 57, 52, 57, 54, 55, 50, 56, 56, 122])) = .ok (ip4 10 0 0 0, some 8) ∧
    ((8 : Nat) : Int) = nearestLong (-4294967288) % 2 ^ 32 := by
  refine ⟨⟨[32], [45], [52, 50, 57, 52, 57, 54, 55, 50, 56, 56], [122], 4294967288, rfl, ?_, Or.inr (Or.inr rfl), Or.inr ?_, ?_, (fun h => by cases h), rfl⟩, by decide +kernel, by decide⟩
  · intro c hc
    rw [List.mem_singleton] at hc
    exact Or.inl hc
  · exact ⟨[4, 2, 9, 4, 9, 6, 7, 2, 8, 8], by decide +kernel, by decide, by decide, by decide⟩
  · intro c hc
    cases hc
    unfold IsDecimal
    decide

end Loc.Props
