import Verif.Lemmas.TextIpv6
/-
`inet_ntop` writes an address in text form.
-/
namespace Loc
open Loc.Spec

theorem word_lt (a : Addr) (i : Nat) : word a i < 65536 := by
  unfold word
  have := (oct a (2 * i)).isLt
  have := (oct a (2 * i + 1)).isLt
  omega

theorem octets16_word (a : Addr) (i : Nat) : octets16 (word a i) = [oct a (2 * i), oct a (2 * i + 1)] := by
  unfold octets16 word
  have h1 := (oct a (2 * i)).isLt
  have h2 := (oct a (2 * i + 1)).isLt
  simp only [List.cons.injEq, and_true]
  constructor
  · apply BitVec.eq_of_toNat_eq
    rw [BitVec.toNat_ofNat]
    omega
  · apply BitVec.eq_of_toNat_eq
    rw [BitVec.toNat_ofNat]
    omega

/-- The octets of the words from `i` on -/
def bytesFrom (a : Addr) (i : Nat) : (fuel : Nat) → List Byte
  | 0 => []
  | fuel + 1 => octets16 (word a i) ++ bytesFrom a (i + 1) fuel

theorem bytesFrom_length (a : Addr) (i fuel : Nat) : (bytesFrom a i fuel).length = 2 * fuel := by
  induction fuel generalizing i with
  | zero => rfl
  | succ f ih =>
    rw [bytesFrom, List.length_append, ih, show (octets16 _).length = 2 from rfl]
    omega

theorem bytesFrom_append (a : Addr) (i m k : Nat) : bytesFrom a i m ++ bytesFrom a (i + m) k = bytesFrom a i (m + k) := by
  induction m generalizing i with
  | zero => simp [bytesFrom]
  | succ m ih =>
    rw [show m + 1 + k = (m + k) + 1 by omega, bytesFrom, bytesFrom, List.append_assoc, ← ih (i + 1), show i + 1 + m = i + (m + 1) by omega]

theorem bytesFrom_all (a : Addr) : bytesFrom a 0 8 = a.toList := by
  simp only [bytesFrom, octets16_word, List.append_nil, List.cons_append, List.nil_append, Nat.reduceMul, Nat.reduceAdd]
  obtain ⟨⟨l⟩, h⟩ := a
  match l, h with
  | [_, _, _, _, _, _, _, _, _, _, _, _, _, _, _, _], _ => rfl

theorem bytesFrom_zero (a : Addr) (i m : Nat) (h : ∀ j, i ≤ j → j < i + m → word a j = 0) : bytesFrom a i m = List.replicate (2 * m) 0 := by
  induction m generalizing i with
  | zero => rfl
  | succ m ih =>
    rw [bytesFrom, ih (i + 1) (fun j h1 h2 => h j (by omega) (by omega)), h i (Nat.le_refl _) (by omega)]
    rw [show 2 * (m + 1) = 2 * m + 1 + 1 by omega, List.replicate_succ, List.replicate_succ]
    rfl

theorem hexStr_hextet {v : Nat} (h : v < 65536) : Hextet v (hexStr v) ∧ (hexStr v).length ≤ 4 := by
  have hn := hexStr_numeral (n := v) (by omega)
  have hl := numeral_length (m := 4) hn (by omega) (by decide)
  refine ⟨?_, hl⟩
  obtain ⟨ds, k1, k2, k3, k4, k5⟩ := hn
  refine ⟨ds, ?_, k3, by rw [← map_some_length k1]; exact hl, k5⟩
  have : ∀ (s : CStr) (ds : List Nat), s.map digitOf = ds.map some → s.map anyDigitOf = ds.map some := by
    intro s
    induction s with
    | nil => exact fun ds h => h
    | cons c s ih =>
      intro ds h
      cases ds with
      | nil => simp at h
      | cons d ds =>
        simp only [List.map_cons, List.cons.injEq] at h ⊢
        exact ⟨by rw [anyDigitOf_eq]; exact digitOf_hex h.1, ih ds h.2⟩
  exact this _ _ k1

theorem decStr_octet (b : Byte) : Numeral 10 b.toNat (decStr b.toNat) ∧ (decStr b.toNat).length ≤ 3 := by
  have hb := b.isLt
  have hn := decStr_numeral (n := b.toNat) (by omega)
  exact ⟨hn, numeral_length (m := 3) hn (by omega) (by decide)⟩

theorem ntop4_text (a b c d : Byte) : IPv4Text (ntop4 a b c d) [a, b, c, d] := by
  refine ⟨a.toNat, b.toNat, c.toNat, d.toNat, _, _, _, _, (decStr_octet a).1, (decStr_octet b).1, (decStr_octet c).1, (decStr_octet d).1,
    a.isLt, b.isLt, c.isLt, d.isLt, rfl, ?_⟩
  simp

theorem ntop4_length (a b c d : Byte) : (ntop4 a b c d).length ≤ 15 := by
  have h1 := (decStr_octet a).2
  have h2 := (decStr_octet b).2
  have h3 := (decStr_octet c).2
  have h4 := (decStr_octet d).2
  unfold ntop4
  simp only [List.length_append, List.length_cons]
  omega

/-! ## The run of zeroes -/

/-- A run of zero words which ends at or before word `i` -/
def RunOk (a : Addr) (i : Nat) (r : Option (Nat × Nat)) : Prop :=
  ∀ b l, r = some (b, l) → b + l ≤ i ∧ ∀ j, b ≤ j → j < b + l → word a j = 0

theorem better_ok {a : Addr} {i : Nat} {x y : Option (Nat × Nat)} (hx : RunOk a i x) (hy : RunOk a i y) : RunOk a i (betterRun x y) := by
  unfold betterRun
  split
  · exact hx
  · exact hy
  · split
    · exact hy
    · exact hx

theorem runLoop_ok (a : Addr) : ∀ (fuel i : Nat) (best cur : Option (Nat × Nat)), RunOk a i best → RunOk a i cur →
    (∀ b l, cur = some (b, l) → b + l = i) → RunOk a (i + fuel) (runLoop a best cur i fuel) := by
  intro fuel
  induction fuel with
  | zero =>
    intro i best cur hb hc _
    exact better_ok hb hc
  | succ fuel ih =>
    intro i best cur hb hc he
    have hb' : RunOk a (i + 1) best := fun b l h => ⟨by have := (hb b l h).1; omega, (hb b l h).2⟩
    have hc' : RunOk a (i + 1) cur := fun b l h => ⟨by have := (hc b l h).1; omega, (hc b l h).2⟩
    rw [runLoop, show i + (fuel + 1) = i + 1 + fuel by omega]
    by_cases hw : word a i = 0
    · rw [if_pos (by simpa using hw)]
      match cur, hc, he with
      | none, hc, he =>
        rw [show extendRun none i = some (i, 1) from rfl]
        refine ih (i + 1) best _ hb' ?_ ?_
        · intro b l h
          simp only [Option.some.injEq, Prod.mk.injEq] at h
          refine ⟨by omega, fun j h1 h2 => ?_⟩
          rw [show j = i by omega]
          exact hw
        · intro b l h
          simp only [Option.some.injEq, Prod.mk.injEq] at h
          omega
      | some (b0, l0), hc, he =>
        have e0 := he b0 l0 rfl
        have z0 := (hc b0 l0 rfl).2
        rw [show extendRun (some (b0, l0)) i = some (b0, l0 + 1) from rfl]
        refine ih (i + 1) best _ hb' ?_ ?_
        · intro b l h
          simp only [Option.some.injEq, Prod.mk.injEq] at h
          refine ⟨by omega, fun j h1 h2 => ?_⟩
          by_cases hj : j = i
          · rw [hj]
            exact hw
          · exact z0 j (by omega) (by omega)
        · intro b l h
          simp only [Option.some.injEq, Prod.mk.injEq] at h
          omega
    · rw [if_neg (by simpa using hw)]
      exact ih (i + 1) _ none (better_ok hb' hc') (fun b l h => by cases h) (fun b l h => by cases h)

theorem zeroRun_ok {a : Addr} {b l : Nat} (h : zeroRun a = some (b, l)) : 2 ≤ l ∧ b + l ≤ 8 ∧ ∀ j, b ≤ j → j < b + l → word a j = 0 := by
  have hr := runLoop_ok a 8 0 none none (fun b l h => by cases h) (fun b l h => by cases h) (fun b l h => by cases h)
  unfold zeroRun at h
  cases hx : runLoop a none none 0 8 with
  | none =>
    rw [hx] at h
    cases h
  | some r =>
    obtain ⟨b', l'⟩ := r
    rw [hx] at h hr
    simp only at h
    split at h
    · cases h
    · simp only [Option.some.injEq, Prod.mk.injEq] at h
      obtain ⟨rfl, rfl⟩ := h
      obtain ⟨h1, h2⟩ := hr _ _ rfl
      exact ⟨by omega, by omega, h2⟩

/-! ## The output loop -/

/-- Behind the run -/
theorem loop_behind {a : Addr} {best : Option (Nat × Nat)} : ∀ (fuel i : Nat), 0 < i → i + (fuel + 1) = 8 →
    (∀ b l, best = some (b, l) → b + l ≤ i) → ∃ g, ntop6Loop a best i (fuel + 1) = 58 :: g ∧ Groups g (bytesFrom a i (fuel + 1)) := by
  intro fuel
  induction fuel with
  | zero =>
    intro i hi he hb
    have hr : inRun best i = none := by
      unfold inRun
      match best, hb with
      | none, _ => rfl
      | some (b, l), hb =>
        have := hb b l rfl
        simp only
        rw [if_neg (by omega)]
    have h7 : i = 7 := by omega
    refine ⟨hexStr (word a i), ?_, ?_⟩
    · rw [ntop6Loop, hr]
      simp only
      rw [if_neg (by simp [h7]), if_neg (by simp; omega), ntop6Loop]
      have : trailing best = [] := by
        unfold trailing
        match best, hb with
        | none, _ => rfl
        | some (b, l), hb =>
          have := hb b l rfl
          simp only
          rw [if_neg (by simp; omega)]
      rw [this]
      simp
    · rw [bytesFrom, bytesFrom, List.append_nil]
      exact .last (hexStr_hextet (word_lt a i)).1
  | succ fuel ih =>
    intro i hi he hb
    have hr : inRun best i = none := by
      unfold inRun
      match best, hb with
      | none, _ => rfl
      | some (b, l), hb =>
        have := hb b l rfl
        simp only
        rw [if_neg (by omega)]
    obtain ⟨g, g1, g2⟩ := ih (i + 1) (by omega) (by omega) (fun b l h => by have := hb b l h; omega)
    rw [ntop6Loop, hr]
    simp only
    rw [if_neg (show ¬ (i == 0) = true by simp; omega)]
    by_cases ht : (i == 6 && tail4 a best) = true
    · rw [if_pos ht]
      have h6 : i = 6 := by simp at ht; exact ht.1
      refine ⟨_, rfl, .quad ?_⟩
      have hf : fuel = 0 := by omega
      subst h6 hf
      simp only [bytesFrom, octets16_word, Nat.zero_add, Nat.reduceAdd, Nat.reduceMul, List.append_nil, List.cons_append, List.nil_append]
      exact ntop4_text _ _ _ _
    · rw [if_neg ht, g1]
      refine ⟨hexStr (word a i) ++ 58 :: g, by simp, ?_⟩
      rw [bytesFrom]
      exact .cons (hexStr_hextet (word_lt a i)).1 g2

/-- Inside of the run, after its first word -/
theorem loop_inside {a : Addr} {b l : Nat} : ∀ (k i fuel : Nat), b < i → i + k = b + l → ntop6Loop a (some (b, l)) i (k + fuel) = ntop6Loop a (some (b, l)) (b + l) fuel := by
  intro k
  induction k with
  | zero =>
    intro i fuel h1 h2
    rw [Nat.zero_add, show i = b + l by omega]
  | succ k ih =>
    intro i fuel h1 h2
    have hr : inRun (some (b, l)) i = some false := by
      unfold inRun
      simp only
      rw [if_pos (by omega)]
      simp
      omega
    rw [show k + 1 + fuel = k + fuel + 1 by omega, ntop6Loop, hr]
    exact ih (i + 1) fuel (by omega) (by omega)

/-- At the run -/
theorem loop_run {a : Addr} {b l : Nat} (h2 : 2 ≤ l) (h8 : b + l ≤ 8) : ∃ t bs, ntop6Loop a (some (b, l)) b (8 - b) = 58 :: 58 :: t ∧
    ((t = [] ∧ bs = []) ∨ Groups t bs) ∧ bs = bytesFrom a (b + l) (8 - (b + l)) := by
  have hr : inRun (some (b, l)) b = some true := by
    unfold inRun
    simp only
    rw [if_pos (by omega)]
    simp
  have hi := loop_inside (a := a) (b := b) (l := l) (l - 1) (b + 1) (8 - (b + l)) (by omega) (by omega)
  rw [show 8 - b = (l - 1 + (8 - (b + l))) + 1 by omega, ntop6Loop, hr]
  simp only
  rw [hi]
  by_cases he : b + l = 8
  · refine ⟨[], [], ?_, .inl ⟨rfl, rfl⟩, ?_⟩
    · rw [show 8 - (b + l) = 0 by omega, ntop6Loop]
      simp [trailing, he]
    · rw [show 8 - (b + l) = 0 by omega]
      rfl
  · obtain ⟨g, g1, g2⟩ := loop_behind (a := a) (best := some (b, l)) (8 - (b + l) - 1) (b + l) (by omega) (by omega)
      (fun b' l' h => by simp only [Option.some.injEq, Prod.mk.injEq] at h; omega)
    rw [show 8 - (b + l) - 1 + 1 = 8 - (b + l) by omega] at g1 g2
    exact ⟨g, _, by rw [g1], .inr g2, rfl⟩

/-- In front of the run -/
theorem loop_front {a : Addr} {b l : Nat} (h2 : 2 ≤ l) (h8 : b + l ≤ 8) : ∀ (k i : Nat), 0 < i → i + k = b →
    ∃ f t bs, ntop6Loop a (some (b, l)) i (8 - i) = 58 :: (f ++ 58 :: t) ∧ Front f (bytesFrom a i k) ∧
      ((t = [] ∧ bs = []) ∨ Groups t bs) ∧ bs = bytesFrom a (b + l) (8 - (b + l)) := by
  intro k
  induction k with
  | zero =>
    intro i hi hb
    rw [Nat.add_zero] at hb
    subst hb
    obtain ⟨t, bs, h1, h3, h4⟩ := loop_run (a := a) h2 h8
    exact ⟨[], t, bs, h1, .nil, h3, h4⟩
  | succ k ih =>
    intro i hi hb
    obtain ⟨f, t, bs, h1, h3, h4, h5⟩ := ih (i + 1) (by omega) (by omega)
    have hr : inRun (some (b, l)) i = none := by
      unfold inRun
      simp only
      rw [if_neg (by omega)]
    have h6 : ¬ (i == 6 && tail4 a (some (b, l))) = true := by
      simp
      intro h
      omega
    refine ⟨hexStr (word a i) ++ 58 :: f, t, bs, ?_, ?_, h4, h5⟩
    · rw [show 8 - i = 8 - (i + 1) + 1 by omega, ntop6Loop, hr]
      simp only
      rw [if_neg (show ¬ (i == 0) = true by simp; omega), if_neg h6, h1]
      simp
    · rw [bytesFrom]
      exact .cons (hexStr_hextet (word_lt a i)).1 h3

/-- `inet_ntop6` writes an IPv6 address in text form. -/
theorem ntop6_text (a : Addr) : IPv6Text (ntop6 a) a.toList := by
  unfold ntop6
  have h60 : ∀ best, ¬ ((0 : Nat) == 6 && tail4 a best) = true := fun _ => by simp
  match hz : zeroRun a with
  | none =>
    obtain ⟨g, g1, g2⟩ := loop_behind (a := a) (best := none) 6 1 (by decide) (by decide) (fun b l h => by cases h)
    rw [ntop6Loop, show inRun none 0 = none from rfl]
    simp only
    rw [if_neg (h60 _), if_pos (show ((0 : Nat) == 0) = true from rfl), g1, List.nil_append, ← bytesFrom_all]
    refine .full ?_ (bytesFrom_length a 0 8)
    rw [bytesFrom]
    exact .cons (hexStr_hextet (word_lt a 0)).1 g2
  | some (b, l) =>
    obtain ⟨h2, h8, h0⟩ := zeroRun_ok hz
    have hall : ∀ {bs : List Byte}, bs = bytesFrom a (b + l) (8 - (b + l)) →
        bytesFrom a 0 b ++ List.replicate (16 - ((bytesFrom a 0 b).length + bs.length)) 0 ++ bs = a.toList ∧ (bytesFrom a 0 b).length + bs.length < 16 := by
      rintro bs rfl
      constructor
      · rw [bytesFrom_length, bytesFrom_length, ← bytesFrom_all]
        rw [show 16 - (2 * b + 2 * (8 - (b + l))) = 2 * l by omega, ← bytesFrom_zero a b l h0]
        have e1 := bytesFrom_append a 0 b l
        rw [Nat.zero_add] at e1
        have e2 := bytesFrom_append a 0 (b + l) (8 - (b + l))
        rw [Nat.zero_add] at e2
        rw [e1, e2, show b + l + (8 - (b + l)) = 8 by omega]
      · rw [bytesFrom_length, bytesFrom_length]
        omega
    by_cases hb : b = 0
    · subst hb
      obtain ⟨t, bs, h1, h3, h4⟩ := loop_run (a := a) h2 h8
      obtain ⟨e1, e2⟩ := hall h4
      rw [show 8 - 0 = 8 from rfl] at h1
      rw [h1, ← e1]
      exact .short (s := []) .nil h3 e2
    · obtain ⟨f, t, bs, h1, h3, h4, h5⟩ := loop_front (a := a) h2 h8 (b - 1) 1 (by decide) (by omega)
      obtain ⟨e1, e2⟩ := hall h5
      have hr : inRun (some (b, l)) 0 = none := by
        unfold inRun
        simp only
        rw [if_neg (by omega)]
      have hf : Front (hexStr (word a 0) ++ 58 :: f) (bytesFrom a 0 b) := by
        rw [show b = b - 1 + 1 by omega, bytesFrom]
        exact .cons (hexStr_hextet (word_lt a 0)).1 h3
      have := IPv6Text.short hf h4 e2
      rw [e1, if_neg (by simp)] at this
      rw [ntop6Loop, hr]
      simp only
      rw [if_neg (h60 _), if_pos (show ((0 : Nat) == 0) = true from rfl), h1]
      simpa using this

/-! ## Lengths -/

theorem loop_length {a : Addr} {best : Option (Nat × Nat)} (ht : tail4 a best = false) : ∀ (fuel i : Nat), (ntop6Loop a best i fuel).length ≤ 5 * fuel + 1 := by
  intro fuel
  induction fuel with
  | zero =>
    intro i
    rw [ntop6Loop]
    unfold trailing
    split
    · split <;> simp
    · simp
  | succ fuel ih =>
    intro i
    have h := ih (i + 1)
    rw [ntop6Loop]
    split
    · simp only [List.length_cons]
      omega
    · omega
    · simp only
      rw [if_neg (by simp [ht])]
      have := (hexStr_hextet (word_lt a i)).2
      simp only [List.length_append]
      have : (if (i == 0) = true then ([] : CStr) else [58]).length ≤ 1 := by split <;> simp
      omega

theorem ntop6_length (a : Addr) : (ntop6 a).length ≤ 41 := by
  unfold ntop6
  cases ht : tail4 a (zeroRun a) with
  | false =>
    have := loop_length ht 8 0
    omega
  | true =>
    match hz : zeroRun a with
    | none =>
      rw [hz] at ht
      cases ht
    | some (b, l) =>
      rw [hz] at ht
      have hb : b = 0 ∧ (l = 6 ∨ l = 5) := by
        unfold tail4 at ht
        cases b with
        | zero =>
          simp only [Bool.or_eq_true, beq_iff_eq, Bool.and_eq_true] at ht
          exact ⟨rfl, by omega⟩
        | succ b => cases ht
      obtain ⟨rfl, h⟩ := hb
      have h4 := ntop4_length (oct a 12) (oct a 13) (oct a 14) (oct a 15)
      have h5 := (hexStr_hextet (word_lt a 5)).2
      rcases h with rfl | rfl
      · simp only [ntop6Loop, inRun, trailing, ht]
        simp
        omega
      · simp only [ntop6Loop, inRun, trailing, ht]
        simp
        omega

theorem addrText_length (a : Addr) : (addrText a).length ≤ 41 := by
  unfold addrText
  split
  · have := ntop4_length (oct a 12) (oct a 13) (oct a 14) (oct a 15)
    omega
  · exact ntop6_length a

end Loc
