import Verif.Spec.Text
import Verif.Model.Text
import Verif.Lemmas.Network
/-
Lemmas about numerals and `inet_pton`.
-/
namespace Loc
open Loc.Spec

/-! ## Digits -/

theorem forall_byte {P : Byte → Prop} (h : ∀ k, k < 256 → P (BitVec.ofNat 8 k)) (c : Byte) : P c := by
  have := h c.toNat c.isLt
  rwa [BitVec.ofNat_toNat, BitVec.setWidth_eq] at this

theorem anyDigitOf_eq (c : Byte) : anyDigitOf c = hexVal c :=
  forall_byte (P := fun c => anyDigitOf c = hexVal c) (by decide +kernel) c

/-- The digits below 10 -/
theorem digitOf_dec (c : Byte) (d : Nat) : (digitOf c = some d ∧ d < 10) ↔ decVal c = some d := by
  have h1 : (digitOf c).filter (fun d => decide (d < 10)) = decVal c :=
    forall_byte (P := fun c => (digitOf c).filter (fun d => decide (d < 10)) = decVal c) (by decide +kernel) c
  rw [← h1, Option.filter_eq_some_iff]
  simp

theorem digitOf_char {d : Nat} (h : d < 16) : digitOf (digitChar d) = some d := by
  revert d
  decide +kernel

theorem digitOf_hex {c : Byte} {d : Nat} (h : digitOf c = some d) : hexVal c = some d := by
  rw [← anyDigitOf_eq]
  unfold anyDigitOf
  rw [h]

theorem decVal_hex {c : Byte} {d : Nat} (h : decVal c = some d) : hexVal c = some d :=
  digitOf_hex ((digitOf_dec c d).mpr h).1

theorem decVal_lt {c : Byte} {d : Nat} (h : decVal c = some d) : d < 10 := ((digitOf_dec c d).mpr h).2

theorem digits_dec {s : CStr} {ds : List Nat} : (s.map digitOf = ds.map some ∧ ∀ d ∈ ds, d < 10) ↔ s.map decVal = ds.map some := by
  induction s generalizing ds with
  | nil => cases ds <;> simp
  | cons c s ih =>
    cases ds with
    | nil => simp
    | cons d ds =>
      simp only [List.map_cons, List.cons.injEq, List.mem_cons, forall_eq_or_imp, ← ih, ← digitOf_dec]
      constructor
      · rintro ⟨⟨a, b⟩, c, d⟩; exact ⟨⟨a, c⟩, b, d⟩
      · rintro ⟨⟨a, b⟩, c, d⟩; exact ⟨⟨a, c⟩, b, d⟩

/-- The value of further digits -/
def more (base acc : Nat) (ds : List Nat) : Nat := ds.foldl (fun acc d => acc * base + d) acc

theorem more_cons (base acc d : Nat) (ds : List Nat) : more base acc (d :: ds) = more base (acc * base + d) ds := rfl

theorem more_nil (base acc : Nat) : more base acc [] = acc := rfl

theorem le_more {base : Nat} (h : 1 ≤ base) (acc : Nat) (ds : List Nat) : acc ≤ more base acc ds := by
  induction ds generalizing acc with
  | nil => exact Nat.le_refl _
  | cons d ds ih =>
    rw [more_cons]
    have h1 := ih (acc * base + d)
    have h2 : acc * 1 ≤ acc * base := Nat.mul_le_mul_left _ h
    omega

theorem ofDigits_concat (base : Nat) (ds : List Nat) (d : Nat) : ofDigits base (ds ++ [d]) = ofDigits base ds * base + d := by
  simp [ofDigits]

/-! ## Numerals -/

theorem num_aux {base : Nat} (h2 : 2 ≤ base) (h16 : base ≤ 16) : ∀ (fuel n : Nat), n < base ^ (fuel + 1) → ∃ ds : List Nat,
    (numLoop base (fuel + 1) n).map digitOf = ds.map some ∧ (∀ d ∈ ds, d < base) ∧ ds ≠ [] ∧ (1 < ds.length → ds.head? ≠ some 0) ∧
    ofDigits base ds = n ∧ (0 < n → ds.head? ≠ some 0) ∧ ds.length ≤ fuel + 1 := by
  intro fuel
  induction fuel with
  | zero =>
    intro n hn
    rw [Nat.zero_add, Nat.pow_one] at hn
    refine ⟨[n], ?_, by simpa using hn, by simp, by simp, by simp [ofDigits], ?_, by simp⟩
    · simp [numLoop, hn, digitOf_char (Nat.lt_of_lt_of_le hn h16)]
    · intro h
      simp
      omega
  | succ fuel ih =>
    intro n hn
    rw [numLoop]
    by_cases hb : n < base
    · rw [if_pos hb]
      refine ⟨[n], ?_, by simpa using hb, by simp, by simp, by simp [ofDigits], ?_, by simp⟩
      · simp [digitOf_char (Nat.lt_of_lt_of_le hb h16)]
      · intro h
        simp
        omega
    · rw [if_neg hb]
      have hq : n / base < base ^ (fuel + 1) := by
        rw [Nat.div_lt_iff_lt_mul (by omega), ← Nat.pow_succ]
        exact hn
      obtain ⟨ds, k1, k2, k3, k4, k5, k6, k7⟩ := ih (n / base) hq
      have hm : n % base < base := Nat.mod_lt _ (by omega)
      have hpos : 0 < n / base := Nat.div_pos (by omega) (by omega)
      have hh : (ds ++ [n % base]).head? ≠ some 0 := by
        cases ds with
        | nil => exact absurd rfl k3
        | cons d ds => simpa using k6 hpos
      refine ⟨ds ++ [n % base], ?_, ?_, by simp, fun _ => hh, ?_, fun _ => hh, ?_⟩
      · rw [List.map_append, k1, List.map_append]
        simp [digitOf_char (Nat.lt_of_lt_of_le hm h16)]
      · intro d hd
        rw [List.mem_append, List.mem_singleton] at hd
        rcases hd with hd | hd
        · exact k2 d hd
        · omega
      · rw [ofDigits_concat, k5]
        exact Nat.div_add_mod' n base
      · simp
        omega

theorem decStr_numeral {n : Nat} (h : n < 10 ^ 10) : Numeral 10 n (decStr n) := by
  obtain ⟨ds, k1, k2, k3, k4, k5, -⟩ := num_aux (by decide) (by decide) 9 n h
  exact ⟨ds, k1, k2, k3, k4, k5⟩

theorem hexStr_numeral {n : Nat} (h : n < 16 ^ 8) : Numeral 16 n (hexStr n) := by
  obtain ⟨ds, k1, k2, k3, k4, k5, -⟩ := num_aux (by decide) (by decide) 7 n h
  exact ⟨ds, k1, k2, k3, k4, k5⟩

theorem map_some_length {s : CStr} {f : Byte → Option Nat} {ds : List Nat} (h : s.map f = ds.map some) : s.length = ds.length := by
  have := congrArg List.length h
  simpa using this

/-- The number is determined by its numeral. -/
theorem map_some_inj {s : CStr} {f : Byte → Option Nat} {ds es : List Nat} (h : s.map f = ds.map some) (h' : s.map f = es.map some) : ds = es := by
  rw [h] at h'
  exact (List.map_inj_right (fun _ _ h => Option.some.inj h)).mp h'

theorem numeral_inj {base a b : Nat} {s : CStr} (h : Numeral base a s) (h' : Numeral base b s) : a = b := by
  obtain ⟨ds, k1, -, -, -, k5⟩ := h
  obtain ⟨es, l1, -, -, -, l5⟩ := h'
  rw [← k5, ← l5, map_some_inj k1 l1]

/-- Numbers with `m` digits and without leading zero are at least `base ^ (m - 1)`. -/
theorem more_ge {base : Nat} (acc : Nat) (ds : List Nat) : acc * base ^ ds.length ≤ more base acc ds := by
  induction ds generalizing acc with
  | nil => simp [more_nil]
  | cons d ds ih =>
    rw [more_cons]
    refine Nat.le_trans ?_ (ih _)
    rw [List.length_cons, Nat.pow_succ, Nat.mul_comm (base ^ ds.length), ← Nat.mul_assoc]
    exact Nat.mul_le_mul_right _ (by omega)

theorem numeral_length {base k m : Nat} {s : CStr} (h : Numeral base k s) (hk : k < base ^ m) (hm : 1 ≤ m) : s.length ≤ m := by
  obtain ⟨ds, k1, k2, k3, k4, k5⟩ := h
  rw [map_some_length k1]
  cases ds with
  | nil => exact absurd rfl k3
  | cons d ds =>
    cases ds with
    | nil => simpa using hm
    | cons e ds =>
      have hd : d ≠ 0 := by
        have := k4 (by simp)
        simpa using this
      have h1 : ofDigits base (d :: e :: ds) = more base d (e :: ds) := by
        rw [ofDigits, List.foldl_cons]
        simp [more]
      have h2 := more_ge (base := base) d (e :: ds)
      rw [← h1, k5] at h2
      have h3 : base ^ (e :: ds).length ≤ d * base ^ (e :: ds).length := Nat.le_mul_of_pos_left _ (by omega)
      have h4 : base ^ (e :: ds).length < base ^ m := by omega
      have hb : 1 < base := by
        have := k2 d (by simp)
        omega
      have := (Nat.pow_lt_pow_iff_right hb).mp h4
      simp only [List.length_cons] at this ⊢
      omega

theorem numeral_ne_nil {base k : Nat} {s : CStr} (h : Numeral base k s) : s ≠ [] := by
  obtain ⟨ds, k1, -, k3, -⟩ := h
  intro h
  have := map_some_length k1
  rw [h] at this
  cases ds with
  | nil => exact k3 rfl
  | cons => simp at this

/-! ## inet_pton4 -/

theorem pton4_digits {t : CStr} {ds : List Nat} (h : t.map decVal = ds.map some) (r : CStr) (out : List Byte) (cur o : Nat) (hc : cur ≤ 255) :
    pton4Loop (t ++ r) out cur true o = if (t = [] ∨ cur ≠ 0) ∧ more 10 cur ds ≤ 255 then pton4Loop r out (more 10 cur ds) true o else none := by
  induction t generalizing ds cur with
  | nil =>
    cases ds with
    | nil => simp [more_nil, hc]
    | cons => simp at h
  | cons c t ih =>
    cases ds with
    | nil => simp at h
    | cons d ds =>
      simp only [List.map_cons, List.cons.injEq] at h
      rw [List.cons_append, pton4Loop, h.1]
      simp only [Bool.true_and, beq_iff_eq, reduceCtorEq, false_or, more_cons, ↓reduceIte]
      by_cases h0 : cur = 0
      · simp [h0]
      · rw [if_neg h0]
        by_cases h1 : cur * 10 + d > 255
        · rw [if_pos h1, if_neg]
          have := le_more (base := 10) (by decide) (cur * 10 + d) ds
          omega
        · rw [if_neg h1, ih h.2 (cur * 10 + d) (by omega)]
          have h2 : cur * 10 + d ≠ 0 := by omega
          simp only [ne_eq, h0, h2, not_false_eq_true, or_true, true_and]

/-- A string splits into its leading characters with a property and the rest. -/
theorem split_run (f : Byte → Option Nat) (s : CStr) : ∃ (t r : CStr) (ds : List Nat), s = t ++ r ∧ t.map f = ds.map some ∧ ∀ c r', r = c :: r' → f c = none := by
  induction s with
  | nil => exact ⟨[], [], [], rfl, rfl, by simp⟩
  | cons c s ih =>
    cases hc : f c with
    | none => exact ⟨[], c :: s, [], rfl, rfl, by rintro _ _ h; cases h; exact hc⟩
    | some d =>
      obtain ⟨t, r, ds, h1, h2, h3⟩ := ih
      exact ⟨c :: t, r, d :: ds, by rw [h1]; rfl, by simp [hc, h2], h3⟩

theorem pton4_step {s : CStr} {out l : List Byte} (ho : out.length ≤ 3) :
    pton4Loop s out 0 false out.length = some l ↔ ∃ k t r, Numeral 10 k t ∧ k < 256 ∧ s = t ++ r ∧
      ((r = [] ∧ out.length = 3 ∧ l = out ++ [BitVec.ofNat 8 k]) ∨
       ∃ s', r = 46 :: s' ∧ out.length < 3 ∧ pton4Loop s' (out ++ [BitVec.ofNat 8 k]) 0 false (out.length + 1) = some l) := by
  have key : ∀ {c : Byte} {t r : CStr} {d : Nat} {ds : List Nat}, decVal c = some d → t.map decVal = ds.map some →
      pton4Loop (c :: (t ++ r)) out 0 false out.length =
        if (t = [] ∨ d ≠ 0) ∧ more 10 d ds ≤ 255 then pton4Loop r out (more 10 d ds) true (out.length + 1) else none := by
    intro c t r d ds hc ht
    have hd := decVal_lt hc
    rw [pton4Loop, hc]
    simp only [Bool.false_and, Bool.false_eq_true, ↓reduceIte, Nat.zero_mul, Nat.zero_add]
    rw [if_neg (by omega), if_neg (by omega), pton4_digits ht r out d _ (by omega)]
  constructor
  · intro h
    obtain ⟨t, r, ds, h1, h2, h3⟩ := split_run decVal s
    cases t with
    | nil =>
      cases r with
      | nil =>
        rw [h1] at h
        simp only [List.append_nil, pton4Loop] at h
        rw [if_pos (by omega)] at h
        cases h
      | cons c r =>
        rw [h1, List.nil_append, pton4Loop, h3 c r rfl] at h
        simp at h
    | cons c t =>
      cases ds with
      | nil => simp at h2
      | cons d ds =>
        have h2' := h2
        simp only [List.map_cons, List.cons.injEq] at h2
        rw [h1, List.cons_append, key h2.1 h2.2] at h
        by_cases hc : (t = [] ∨ d ≠ 0) ∧ more 10 d ds ≤ 255
        · rw [if_pos hc] at h
          obtain ⟨g1, g2⟩ := digits_dec.mpr h2'
          have hlen := map_some_length h2.2
          refine ⟨more 10 d ds, c :: t, r, ⟨d :: ds, g1, g2, by simp, ?_, ?_⟩, by omega, h1, ?_⟩
          · intro hl
            rcases hc.1 with h4 | h4
            · rw [h4] at hlen
              simp only [List.length_cons, ← hlen, List.length_nil] at hl
              omega
            · simpa using h4
          · simp [ofDigits, more]
          · cases r with
            | nil =>
              rw [pton4Loop] at h
              by_cases h5 : out.length + 1 < 4
              · rw [if_pos h5] at h
                cases h
              · rw [if_neg h5] at h
                exact .inl ⟨rfl, by omega, (Option.some.inj h).symm⟩
            | cons e r =>
              right
              rw [pton4Loop, h3 e r rfl] at h
              simp only [Bool.and_true, beq_iff_eq] at h
              by_cases h5 : e = 46
              · rw [if_pos h5] at h
                by_cases h6 : out.length + 1 = 4
                · rw [if_pos h6] at h
                  cases h
                · rw [if_neg h6] at h
                  exact ⟨r, by rw [h5], by omega, h⟩
              · rw [if_neg h5] at h
                cases h
        · rw [if_neg hc] at h
          cases h
  · rintro ⟨k, t, r, ⟨ds, g1, g2, g3, g4, g5⟩, hk, h1, h2⟩
    have h3 := digits_dec.mp ⟨g1, g2⟩
    cases ds with
    | nil => exact absurd rfl g3
    | cons d ds =>
      cases t with
      | nil => simp at h3
      | cons c t =>
        simp only [List.map_cons, List.cons.injEq] at h3
        have h5 : more 10 d ds = k := by
          rw [← g5]
          simp [ofDigits, more]
        have hlen := map_some_length h3.2
        have h6 : t = [] ∨ d ≠ 0 := by
          cases t with
          | nil => exact .inl rfl
          | cons e t =>
            right
            have := g4 (by simp only [List.length_cons] at hlen ⊢; omega)
            simpa using this
        rw [h1, List.cons_append, key h3.1 h3.2, if_pos ⟨h6, by omega⟩, h5]
        rcases h2 with ⟨r1, r2, r3⟩ | ⟨s', r1, r2, r3⟩
        · rw [r1, pton4Loop, if_neg (by omega), r3]
        · rw [r1, pton4Loop, show decVal 46 = none from rfl]
          simp only [BEq.rfl, Bool.and_self, ↓reduceIte, beq_iff_eq]
          rw [if_neg (by omega), r3]

theorem pton4_iff {s : CStr} {l : List Byte} : pton4 s = some l ↔ IPv4Text s l := by
  unfold pton4
  have e0 := pton4_step (s := s) (out := []) (l := l) (by simp)
  rw [List.length_nil] at e0
  rw [e0]
  constructor
  · rintro ⟨a, sa, r, na, ha, h1, h2⟩
    rcases h2 with ⟨-, h2, -⟩ | ⟨s1, h2, -, h3⟩
    · simp at h2
    rw [List.nil_append] at h3
    obtain ⟨b, sb, r1, nb, hb, h4, h5⟩ := (pton4_step (by simp)).mp h3
    rcases h5 with ⟨-, h5, -⟩ | ⟨s2, h5, -, h6⟩
    · simp at h5
    obtain ⟨c, sc, r2, nc, hc, h7, h8⟩ := (pton4_step (by simp)).mp h6
    rcases h8 with ⟨-, h8, -⟩ | ⟨s3, h8, -, h9⟩
    · simp at h8
    obtain ⟨d, sd, r3, nd, hd, h10, h11⟩ := (pton4_step (by simp)).mp h9
    rcases h11 with ⟨h11, -, h12⟩ | ⟨s4, -, h11, -⟩
    · refine ⟨a, b, c, d, sa, sb, sc, sd, na, nb, nc, nd, ha, hb, hc, hd, ?_, by rw [h12]; simp⟩
      subst h1 h2 h4 h5 h7 h8 h10 h11
      simp
    · simp at h11
  · rintro ⟨a, b, c, d, sa, sb, sc, sd, na, nb, nc, nd, ha, hb, hc, hd, h1, h2⟩
    refine ⟨a, sa, 46 :: (sb ++ 46 :: (sc ++ 46 :: sd)), na, ha, by rw [h1]; simp, .inr ⟨_, rfl, by simp, ?_⟩⟩
    refine (pton4_step (by simp)).mpr ⟨b, sb, 46 :: (sc ++ 46 :: sd), nb, hb, rfl, .inr ⟨_, rfl, by simp, ?_⟩⟩
    refine (pton4_step (by simp)).mpr ⟨c, sc, 46 :: sd, nc, hc, rfl, .inr ⟨_, rfl, by simp, ?_⟩⟩
    exact (pton4_step (by simp)).mpr ⟨d, sd, [], nd, hd, by simp, .inl ⟨rfl, by simp, by rw [h2]; simp⟩⟩

end Loc
