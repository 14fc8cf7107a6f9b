import Verif.Lemmas.TextNtop
/-
Lemmas about `loc_network_reverse_pointer`.
-/
namespace Loc
open Loc.Spec

theorem oct_value (a : Addr) {i : Nat} (h : i < 16) : (oct a i).toNat = value a / 256 ^ (15 - i) % 256 := by
  have h1 := valUpto_valFrom a (15 - i) (by omega)
  have h2 := valFrom_lt a (15 - i)
  have h3 := (oct a i).isLt
  rw [← h1, Nat.mul_comm, Nat.mul_add_div (by omega), Nat.div_eq_of_lt h2, show 16 - (15 - i) = i + 1 by omega, valUpto]
  omega

theorem getNibble_spec {a : Addr} (h : ¬ IsV4 a) {i : Nat} (hi : i < 32) : ∃ d, getNibble a i = .ok d ∧ d.toNat = nibbleAt a i := by
  have hv : isV4Mapped a = false := by
    cases hh : isV4Mapped a with
    | false => rfl
    | true => exact absurd ((isV4Mapped_iff a).mp hh) h
  have ho := oct_value a (i := i / 2) (by omega)
  have hl := (oct a (i / 2)).isLt
  refine ⟨_, by unfold getNibble getOctet; rw [hv]; simp only [Bool.false_eq_true, ↓reduceIte]; rw [if_neg (by omega), if_neg (by omega)]; rfl, ?_⟩
  have hand : ∀ x : Byte, (x &&& 0x0f#8).toNat = x.toNat % 16 := by
    intro x
    rw [BitVec.toNat_and]
    exact Nat.and_two_pow_sub_one_eq_mod (n := 4) ..
  have hand' : ∀ x : Byte, (x &&& 0x0f).toNat = x.toNat % 16 := hand
  rw [hand']
  unfold nibbleAt
  by_cases h2 : i % 2 = 0
  · rw [if_pos (by simpa using h2), BitVec.toNat_ushiftRight, Nat.shiftRight_eq_div_pow, ho]
    have e : 2 ^ (124 - 4 * i) = 256 ^ (15 - i / 2) * 16 := by
      rw [show (256 : Nat) = 2 ^ 8 from rfl, ← Nat.pow_mul, show (16 : Nat) = 2 ^ 4 from rfl, ← Nat.pow_add]
      congr 1
      omega
    rw [e, ← Nat.div_div_eq_div_mul]
    generalize value a / 256 ^ (15 - i / 2) = q
    omega
  · rw [if_neg (by simpa using h2), ho]
    have e : 2 ^ (124 - 4 * i) = 256 ^ (15 - i / 2) := by
      rw [show (256 : Nat) = 2 ^ 8 from rfl, ← Nat.pow_mul]
      congr 1
      omega
    rw [e]
    generalize value a / 256 ^ (15 - i / 2) = q
    omega

theorem getOctet_spec {a : Addr} (h : IsV4 a) {i : Nat} (hi : i < 4) : getOctet a i = .ok (oct a (12 + i)) ∧ (oct a (12 + i)).toNat = octet4At a i := by
  have hv := (isV4Mapped_iff a).mpr h
  constructor
  · unfold getOctet
    rw [hv]
    simp only [↓reduceIte]
    rw [if_neg (by omega)]
  · rw [oct_value a (by omega)]
    unfold octet4At
    rw [show (256 : Nat) = 2 ^ 8 from rfl, ← Nat.pow_mul, show 8 * (15 - (12 + i)) = 24 - 8 * i by omega]

theorem dotted_cons (l : CStr) (ls : List CStr) : dotted (l :: ls) = l ++ 46 :: dotted ls := by simp [dotted]

theorem dotted_append (a b : List CStr) : dotted (a ++ b) = dotted a ++ dotted b := by simp [dotted]

/-- The labels of the first `k` nibbles -/
def nibbleLabels (a : Addr) (k : Nat) : List CStr := (List.range k).map (fun i => hexStr (nibbleAt a i))

theorem nibbleLabels_succ (a : Addr) (k : Nat) : nibbleLabels a (k + 1) = nibbleLabels a k ++ [hexStr (nibbleAt a k)] := by
  unfold nibbleLabels
  rw [List.range_succ, List.map_append]
  rfl

theorem nibbleLoop_spec {a : Addr} (h : ¬ IsV4 a) (sfx : CStr) : ∀ (fuel i : Nat), i + fuel ≤ 32 →
    nibbleLoop a (dotted (nibbleLabels a i).reverse ++ sfx) i fuel = .ok (dotted (nibbleLabels a (i + fuel)).reverse ++ sfx) := by
  intro fuel
  induction fuel with
  | zero => intro i _; rfl
  | succ fuel ih =>
    intro i hi
    obtain ⟨d, h1, h2⟩ := getNibble_spec h (i := i) (by omega)
    rw [nibbleLoop, h1]
    simp only [bind, Except.bind]
    have := ih (i + 1) (by omega)
    rw [nibbleLabels_succ, List.reverse_append, List.reverse_singleton, List.singleton_append, dotted_cons] at this
    rw [h2, show i + (fuel + 1) = i + 1 + fuel by omega, ← this]
    simp

theorem nibbleAt_lt (a : Addr) (i : Nat) : nibbleAt a i < 16 := Nat.mod_lt _ (by decide)

theorem octet4At_lt (a : Addr) (i : Nat) : octet4At a i < 256 := Nat.mod_lt _ (by decide)

/-- The labels of the first `k` octets -/
def octetLabels (a : Addr) (k : Nat) : List CStr := (List.range k).map (fun i => decStr (octet4At a i))

theorem reverse6 {n : Network} (hb : Block n) (hf : n.family = .inet6) (sfx : Option CStr) : reversePointer n sfx =
    if n.pfx % 4 = 0 then .ok (dotted (wildcard n ++ (nibbleLabels n.first (n.pfx / 4)).reverse) ++ sfx.getD ip6Arpa) else .error (.err ENOTSUP) := by
  have hv : ¬ IsV4 n.first := fun h => by
    have := hb.fam.mpr h
    rw [hf] at this
    cases this
  have hp : netPrefix n = n.pfx := by unfold netPrefix; rw [hf]
  unfold reversePointer
  rw [hf]
  simp only
  unfold reversePointer6
  simp only [hp]
  by_cases h4 : n.pfx % 4 = 0
  · rw [if_neg (by omega), if_pos h4]
    have h1 := nibbleLoop_spec hv (sfx.getD ip6Arpa) (n.pfx / 4) 0 (by have := hb.le; omega)
    rw [Nat.zero_add] at h1
    have h0 : dotted (nibbleLabels n.first 0).reverse ++ sfx.getD ip6Arpa = sfx.getD ip6Arpa := rfl
    rw [h0] at h1
    rw [h1]
    simp only [bind, Except.bind]
    unfold wildcard
    have hle := hb.le
    by_cases h128 : n.pfx = 128
    · rw [if_neg (by omega), if_pos h128, List.nil_append]
    · rw [if_pos (by omega), if_neg h128, List.singleton_append, dotted_cons]
      rfl
  · rw [if_pos (by omega), if_neg h4]

theorem pfx_v4 {n : Network} (hb : Block n) (hv : IsV4 n.first) : 96 ≤ n.pfx := by
  have h1 := hb.aligned
  unfold IsV4 at hv
  by_contra hlt
  have : 2 ^ 33 ∣ 2 ^ (128 - n.pfx) := Nat.pow_dvd_pow 2 (by omega)
  have h2 : value n.first % 2 ^ 33 = 0 := Nat.mod_eq_zero_of_dvd (Nat.dvd_trans this (Nat.dvd_of_mod_eq_zero h1))
  omega

theorem reverse4 {n : Network} (hb : Block n) (hf : n.family = .inet) (sfx : Option CStr) : reversePointer n sfx =
    if n.pfx % 8 = 0 then .ok (dotted (wildcard n ++ (octetLabels n.first ((n.pfx - 96) / 8)).reverse) ++ sfx.getD inAddrArpa) else .error (.err ENOTSUP) := by
  have hv : IsV4 n.first := hb.fam.mp hf
  have hp : netPrefix n = n.pfx - 96 := by unfold netPrefix; rw [hf]
  have h96 := pfx_v4 hb hv
  have hle := hb.le
  unfold reversePointer
  rw [hf]
  simp only
  unfold reversePointer4
  simp only [hp]
  obtain ⟨o0, v0⟩ := getOctet_spec hv (i := 0) (by decide)
  obtain ⟨o1, v1⟩ := getOctet_spec hv (i := 1) (by decide)
  obtain ⟨o2, v2⟩ := getOctet_spec hv (i := 2) (by decide)
  obtain ⟨o3, v3⟩ := getOctet_spec hv (i := 3) (by decide)
  rw [o0, o1, o2, o3]
  simp only [bind, Except.bind, v0, v1, v2, v3]
  by_cases h8 : n.pfx % 8 = 0
  · rw [if_neg (by omega), if_pos h8]
    unfold wildcard octetLabels
    have hc : n.pfx = 128 ∨ n.pfx = 120 ∨ n.pfx = 112 ∨ n.pfx = 104 ∨ n.pfx = 96 := by omega
    rcases hc with h | h | h | h | h <;> simp [h, List.range_succ, dotted_cons] <;> rfl
  · rw [if_pos (by omega), if_neg h8]

/-! ## Different networks have different names -/

theorem numeral_no_dot {base k : Nat} {s : CStr} (h : Numeral base k s) : 46 ∉ s ∧ 42 ∉ s := by
  obtain ⟨ds, h1, -⟩ := h
  constructor
  all_goals
    intro hc
    have := List.mem_map_of_mem (f := digitOf) hc
    rw [h1] at this
    rw [show digitOf _ = none from by decide +kernel] at this
    simp at this

theorem dotted_inj : ∀ {a b : List CStr}, (∀ l ∈ a, (46 : Byte) ∉ l) → (∀ l ∈ b, (46 : Byte) ∉ l) → dotted a = dotted b → a = b := by
  intro a
  induction a with
  | nil =>
    intro b _ _ h
    cases b with
    | nil => rfl
    | cons l b =>
      rw [dotted_cons] at h
      simp [dotted] at h
  | cons l a ih =>
    intro b ha hb h
    cases b with
    | nil =>
      rw [dotted_cons] at h
      simp [dotted] at h
    | cons m b =>
      rw [dotted_cons, dotted_cons] at h
      have key : ∀ (l m x y : CStr), (46 : Byte) ∉ l → (46 : Byte) ∉ m → l ++ 46 :: x = m ++ 46 :: y → l = m ∧ x = y := by
        intro l
        induction l with
        | nil =>
          intro m x y _ hm h
          cases m with
          | nil => exact ⟨rfl, by simpa using h⟩
          | cons c m =>
            simp only [List.nil_append, List.cons_append, List.cons.injEq] at h
            exact absurd (by rw [h.1]; simp) hm
        | cons c l ihl =>
          intro m x y hl hm h
          cases m with
          | nil =>
            simp only [List.nil_append, List.cons_append, List.cons.injEq] at h
            exact absurd (by rw [← h.1]; simp) hl
          | cons d m =>
            simp only [List.cons_append, List.cons.injEq] at h
            obtain ⟨e1, e2⟩ := ihl m x y (fun hh => hl (List.mem_cons_of_mem _ hh)) (fun hh => hm (List.mem_cons_of_mem _ hh)) h.2
            exact ⟨by rw [h.1, e1], e2⟩
      obtain ⟨e1, e2⟩ := key l m _ _ (ha l (by simp)) (hb m (by simp)) h
      rw [e1, ih (fun x hx => ha x (List.mem_cons_of_mem _ hx)) (fun x hx => hb x (List.mem_cons_of_mem _ hx)) e2]

/-- The labels determine the wildcard and the other labels. -/
theorem labels_inj {m n : Network} {a b : List CStr} {base : Nat} (ha : ∀ l ∈ a, ∃ k, Numeral base k l) (hb : ∀ l ∈ b, ∃ k, Numeral base k l)
    (h : dotted (wildcard m ++ a.reverse) = dotted (wildcard n ++ b.reverse)) : a = b := by
  have hw : ∀ n l, l ∈ wildcard n → l = [42] := by
    intro n l hl
    unfold wildcard at hl
    split at hl
    · simp at hl
    · simpa using hl
  have hd : ∀ (n : Network) (a : List CStr), (∀ l ∈ a, ∃ k, Numeral base k l) → ∀ l ∈ wildcard n ++ a.reverse, (46 : Byte) ∉ l := by
    intro n a ha l hl
    rw [List.mem_append, List.mem_reverse] at hl
    rcases hl with hl | hl
    · rw [hw n l hl]
      decide
    · obtain ⟨k, hk⟩ := ha l hl
      exact (numeral_no_dot hk).1
  have he := dotted_inj (hd m a ha) (hd n b hb) h
  have hstar : ∀ (a : List CStr), (∀ l ∈ a, ∃ k, Numeral base k l) → [(42 : Byte)] ∉ a.reverse := by
    intro a ha hc
    rw [List.mem_reverse] at hc
    obtain ⟨k, hk⟩ := ha _ hc
    exact (numeral_no_dot hk).2 (by simp)
  have : a.reverse = b.reverse := by
    unfold wildcard at he
    split at he <;> split at he
    · exact he
    · rw [List.nil_append] at he
      exact absurd (by rw [he]; simp) (hstar a ha)
    · rw [List.nil_append] at he
      exact absurd (by rw [← he]; simp) (hstar b hb)
    · simpa using he
  exact List.reverse_inj.mp this

theorem nibbles_value {a b : Addr} : ∀ (k : Nat), k ≤ 32 → (∀ i, i < k → nibbleAt a i = nibbleAt b i) → value a / 2 ^ (128 - 4 * k) = value b / 2 ^ (128 - 4 * k) := by
  intro k
  induction k with
  | zero =>
    intro _ _
    rw [Nat.div_eq_of_lt (value_lt a), Nat.div_eq_of_lt (value_lt b)]
  | succ k ih =>
    intro hk h
    have h1 := ih (by omega) (fun i hi => h i (by omega))
    have h2 := h k (by omega)
    unfold nibbleAt at h2
    have e : 2 ^ (128 - 4 * k) = 2 ^ (124 - 4 * k) * 16 := by
      rw [show (16 : Nat) = 2 ^ 4 from rfl, ← Nat.pow_add]
      congr 1
      omega
    rw [e, ← Nat.div_div_eq_div_mul, ← Nat.div_div_eq_div_mul] at h1
    rw [show 128 - 4 * (k + 1) = 124 - 4 * k by omega]
    omega

theorem octets_value {a b : Addr} (ha : IsV4 a) (hb : IsV4 b) : ∀ (k : Nat), k ≤ 4 → (∀ i, i < k → octet4At a i = octet4At b i) →
    value a / 2 ^ (32 - 8 * k) = value b / 2 ^ (32 - 8 * k) := by
  intro k
  induction k with
  | zero =>
    intro _ _
    unfold IsV4 at ha hb
    rw [show 32 - 8 * 0 = 32 from rfl, ha, hb]
  | succ k ih =>
    intro hk h
    have h1 := ih (by omega) (fun i hi => h i (by omega))
    have h2 := h k (by omega)
    unfold octet4At at h2
    have e : 2 ^ (32 - 8 * k) = 2 ^ (24 - 8 * k) * 256 := by
      rw [show (256 : Nat) = 2 ^ 8 from rfl, ← Nat.pow_add]
      congr 1
      omega
    rw [e, ← Nat.div_div_eq_div_mul, ← Nat.div_div_eq_div_mul] at h1
    rw [show 32 - 8 * (k + 1) = 24 - 8 * k by omega]
    omega

theorem map_range_inj {f g : Nat → CStr} {k m : Nat} (h : (List.range k).map f = (List.range m).map g) : k = m ∧ ∀ i, i < k → f i = g i := by
  have hl := congrArg List.length h
  simp only [List.length_map, List.length_range] at hl
  subst hl
  refine ⟨rfl, fun i hi => ?_⟩
  have := List.map_inj_left.mp h i (List.mem_range.mpr hi)
  exact this

theorem aligned_inj {x y d : Nat} (hd : 0 < d) (hx : x % d = 0) (hy : y % d = 0) (h : x / d = y / d) : x = y := by
  rw [← Nat.div_add_mod x d, ← Nat.div_add_mod y d, hx, hy, h]

end Loc
