import Verif.Lemmas.Arith
import Verif.Spec.Network
/-
Helper lemmas: networks as bit strings.
-/
namespace Loc
open Spec

/-- Number with the given binary digits, most significant first. -/
def natOfBits (l : List Bool) : Nat := l.foldl (fun acc b => 2 * acc + b.toNat) 0

theorem natOfBits_foldl (l : List Bool) (k : Nat) :
    l.foldl (fun acc b => 2 * acc + b.toNat) k = k * 2 ^ l.length + natOfBits l := by
  induction l generalizing k with
  | nil => simp [natOfBits]
  | cons b l ih =>
    simp only [List.foldl_cons, natOfBits, List.length_cons, Nat.pow_succ]
    rw [ih, ih (2 * 0 + b.toNat)]
    ring

theorem natOfBits_append (x y : List Bool) :
    natOfBits (x ++ y) = natOfBits x * 2 ^ y.length + natOfBits y := by
  unfold natOfBits
  rw [List.foldl_append, natOfBits_foldl]
  rfl

theorem natOfBits_cons (b : Bool) (l : List Bool) :
    natOfBits (b :: l) = b.toNat * 2 ^ l.length + natOfBits l := by
  have := natOfBits_append [b] l
  simpa [natOfBits] using this

theorem natOfBits_lt (l : List Bool) : natOfBits l < 2 ^ l.length := by
  induction l with
  | nil => simp [natOfBits]
  | cons b l ih =>
    rw [natOfBits_cons, List.length_cons, Nat.pow_succ]
    cases b <;> simp <;> omega

theorem natOfBits_replicate_false (k : Nat) : natOfBits (List.replicate k false) = 0 := by
  induction k with
  | zero => rfl
  | succ k ih => rw [List.replicate_succ, natOfBits_cons, ih]; simp

theorem natOfBits_replicate_true (k : Nat) : natOfBits (List.replicate k true) = 2 ^ k - 1 := by
  induction k with
  | zero => rfl
  | succ k ih =>
    rw [List.replicate_succ, natOfBits_cons, ih, List.length_replicate, Nat.pow_succ]
    have := Nat.two_pow_pos k
    simp; omega

theorem natOfBits_inj {x y : List Bool} (hl : x.length = y.length) (h : natOfBits x = natOfBits y) :
    x = y := by
  induction x generalizing y with
  | nil => cases y with
    | nil => rfl
    | cons => simp at hl
  | cons b x ih =>
    cases y with
    | nil => simp at hl
    | cons c y =>
      simp only [List.length_cons, Nat.add_right_cancel_iff] at hl
      rw [natOfBits_cons, natOfBits_cons, hl] at h
      have h1 := natOfBits_lt x
      have h2 := natOfBits_lt y
      rw [hl] at h1
      have hbc : b = c := by
        cases b <;> cases c <;> simp at h ⊢ <;> omega
      subst hbc
      rw [ih hl (by omega)]

theorem natOfBits_testBit (l : List Bool) (j : Nat) (hj : j < l.length) :
    (natOfBits l).testBit j = l[l.length - 1 - j] := by
  induction l with
  | nil => simp at hj
  | cons b l ih =>
    rw [natOfBits_cons, testBit_mul_add _ _ _ _ (natOfBits_lt l)]
    simp only [List.length_cons] at hj
    by_cases h : j < l.length
    · rw [if_pos h, ih h]
      have e : (b :: l).length - 1 - j = (l.length - 1 - j) + 1 := by simp; omega
      simp only [e, List.getElem_cons_succ]
    · have e : j = l.length := by omega
      subst e
      rw [if_neg (by omega)]
      cases b <;> simp

theorem value_eq_natOfBits (a : Addr) : value a = natOfBits (bits a) := by
  apply Nat.eq_of_testBit_eq
  intro j
  by_cases hj : j < 128
  · rw [natOfBits_testBit _ _ (by simpa using hj), getElem_bits]
    simp only [length_bits]
    rw [getBit_eq_bit _ _ (by omega), bit]
    congr 1; omega
  · have hpow : 2 ^ 128 ≤ 2 ^ j := Nat.pow_le_pow_right (by omega) (by omega)
    have h1 := value_lt a
    have h2 := natOfBits_lt (bits a)
    rw [length_bits] at h2
    rw [Nat.testBit_lt_two_pow (by omega), Nat.testBit_lt_two_pow (by omega)]

/-- The bits of the network part of a network. -/
def path (n : Network) : List Bool := (bits n.first).take n.pfx

theorem length_path {n : Network} (h : n.pfx ≤ 128) : (path n).length = n.pfx := by
  simp [path, h]

theorem natOfBits_take (a : Addr) (p : Nat) (_hp : p ≤ 128) :
    natOfBits ((bits a).take p) = value a / 2 ^ (128 - p) := by
  have h := natOfBits_append ((bits a).take p) ((bits a).drop p)
  rw [List.take_append_drop, ← value_eq_natOfBits] at h
  have hl := natOfBits_lt ((bits a).drop p)
  rw [List.length_drop, length_bits] at h hl
  rw [h, Nat.mul_comm, Nat.mul_add_div (Nat.two_pow_pos _), Nat.div_eq_of_lt hl]
  simp

theorem natOfBits_path {n : Network} (h : Block n) :
    value n.first = natOfBits (path n) * 2 ^ (128 - n.pfx) := by
  rw [path, natOfBits_take _ _ h.le]
  have := Nat.div_add_mod (value n.first) (2 ^ (128 - n.pfx))
  rw [h.aligned, Nat.mul_comm] at this
  omega

theorem value_last_path {n : Network} (h : Block n) :
    value n.last = natOfBits (path n) * 2 ^ (128 - n.pfx) + (2 ^ (128 - n.pfx) - 1) := by
  rw [h.last_eq, natOfBits_path h]

theorem bits_first {n : Network} (h : Block n) :
    bits n.first = path n ++ List.replicate (128 - n.pfx) false := by
  apply natOfBits_inj
  · simp [length_path h.le]; have := h.le; omega
  · rw [natOfBits_append, natOfBits_replicate_false, ← value_eq_natOfBits, natOfBits_path h]
    simp

theorem bits_last {n : Network} (h : Block n) :
    bits n.last = path n ++ List.replicate (128 - n.pfx) true := by
  apply natOfBits_inj
  · simp [length_path h.le]; have := h.le; omega
  · rw [natOfBits_append, natOfBits_replicate_true, ← value_eq_natOfBits, value_last_path h]
    simp

/-- prefix of an address, numerically -/
theorem isPrefix_bits_iff (w : List Bool) (a : Addr) (hw : w.length ≤ 128) :
    w <+: bits a ↔ natOfBits w = value a / 2 ^ (128 - w.length) := by
  rw [← natOfBits_take a _ hw, List.prefix_iff_eq_take]
  constructor
  · intro h; rw [← h]
  · intro h; exact natOfBits_inj (by simp [hw]) h

theorem contains_iff_path {n : Network} (h : Block n) (a : Addr) :
    Contains n a ↔ path n <+: bits a := by
  rw [isPrefix_bits_iff _ _ (by rw [length_path h.le]; exact h.le), length_path h.le]
  unfold Contains
  rw [natOfBits_path h, value_last_path h]
  have hp := Nat.two_pow_pos (128 - n.pfx)
  generalize 2 ^ (128 - n.pfx) = P at *
  generalize natOfBits (path n) = q
  constructor
  · intro ⟨h1, h2⟩
    symm
    rw [Nat.div_eq_iff hp]
    omega
  · intro h1
    rw [h1]
    have := Nat.div_mul_le_self (value a) P
    have h2 := Nat.lt_div_mul_add (a := value a) hp
    omega

theorem first_contains {n : Network} (h : Block n) : Contains n n.first := by
  unfold Contains; rw [h.last_eq]; omega

theorem last_contains {n : Network} (h : Block n) : Contains n n.last := by
  unfold Contains; rw [h.last_eq]; omega

theorem prefix_or_prefix {x y z : List Bool} (h1 : x <+: z) (h2 : y <+: z) : x <+: y ∨ y <+: x :=
  List.prefix_or_prefix_of_prefix h1 h2

theorem path_prefix_iff {m n : Network} (hm : Block m) (hn : Block n) :
    path m <+: path n ↔ ∀ a, Contains n a → Contains m a := by
  constructor
  · intro h a ha
    rw [contains_iff_path hm]
    exact h.trans ((contains_iff_path hn a).mp ha)
  · intro h
    have h1 := (contains_iff_path hm _).mp (h _ (first_contains hn))
    have h2 := (contains_iff_path hm _).mp (h _ (last_contains hn))
    have h3 := (contains_iff_path hn _).mp (first_contains hn)
    rcases prefix_or_prefix h1 h3 with h4 | h4
    · exact h4
    · -- `n` is a prefix of `m`: then they are equal
      obtain ⟨t, ht⟩ := h4
      rw [bits_first hn, ← ht] at h1
      rw [bits_last hn, ← ht] at h2
      rw [List.prefix_append_right_inj] at h1 h2
      cases t with
      | nil => rw [← ht]; simp
      | cons b t =>
        exfalso
        cases hk : 128 - n.pfx with
        | zero => rw [hk] at h1; simp at h1
        | succ k =>
          rw [hk, List.replicate_succ, List.cons_prefix_cons] at h1 h2
          cases b <;> simp_all

/-! ### comparison functions -/

theorem matchesAddress_iff (n : Network) (a : Addr) : matchesAddress n a = true ↔ Contains n a := by
  unfold matchesAddress Contains
  by_cases h1 : addrCmp n.first a > 0
  · rw [if_pos h1]
    have := addrCmp_pos.mp h1
    constructor
    · intro h; cases h
    · intro h; omega
  · rw [if_neg h1]
    have h1' : value n.first ≤ value a := by
      have := addrCmp_spec n.first a; omega
    by_cases h2 : addrCmp n.last a < 0
    · rw [if_pos h2]
      have := addrCmp_neg.mp h2
      constructor
      · intro h; cases h
      · intro h; omega
    · rw [if_neg h2]
      have := addrCmp_spec n.last a
      simp; omega

theorem isSubnet_iff_path {m n : Network} (hm : Block m) (hn : Block n) :
    isSubnet m n = true ↔ path m <+: path n := by
  have key : isSubnet m n = true ↔
      m.pfx ≤ n.pfx ∧ value m.first ≤ value n.first ∧ value n.last ≤ value m.last := by
    unfold isSubnet
    by_cases h1 : m.pfx > n.pfx
    · rw [if_pos h1]; simp; omega
    · rw [if_neg h1]
      by_cases h2 : addrCmp m.first n.first > 0
      · rw [if_pos h2]
        have := addrCmp_pos.mp h2
        simp; omega
      · rw [if_neg h2]
        have e2 := addrCmp_spec m.first n.first
        by_cases h3 : addrCmp m.last n.last < 0
        · rw [if_pos h3]
          have := addrCmp_neg.mp h3
          simp; omega
        · rw [if_neg h3]
          have e3 := addrCmp_spec m.last n.last
          simp; omega
  rw [key]
  constructor
  · intro ⟨_, h2, h3⟩
    rw [path_prefix_iff hm hn]
    intro a ⟨ha1, ha2⟩
    exact ⟨by omega, by omega⟩
  · intro h
    have hl := h.length_le
    rw [length_path hm.le, length_path hn.le] at hl
    rw [path_prefix_iff hm hn] at h
    exact ⟨hl, (h _ (first_contains hn)).1, (h _ (last_contains hn)).2⟩

theorem overlaps_iff_path {m n : Network} (hm : Block m) (hn : Block n) :
    overlaps m n = true ↔ path m <+: path n ∨ path n <+: path m := by
  have key : overlaps m n = true ↔ Contains m n.first ∨ Contains n m.first ∨ Contains m n.last ∨ Contains n m.last := by
    unfold overlaps
    simp only [← matchesAddress_iff]
    cases matchesAddress m n.first <;> cases matchesAddress n m.first <;>
      cases matchesAddress m n.last <;> cases matchesAddress n m.last <;> simp
  rw [key]
  constructor
  · intro h
    have : ∃ a, Contains m a ∧ Contains n a := by
      rcases h with h | h | h | h
      · exact ⟨_, h, first_contains hn⟩
      · exact ⟨_, first_contains hm, h⟩
      · exact ⟨_, h, last_contains hn⟩
      · exact ⟨_, last_contains hm, h⟩
    obtain ⟨a, h1, h2⟩ := this
    exact prefix_or_prefix ((contains_iff_path hm a).mp h1) ((contains_iff_path hn a).mp h2)
  · intro h
    rcases h with h | h
    · rw [path_prefix_iff hm hn] at h
      exact .inl (h _ (first_contains hn))
    · rw [path_prefix_iff hn hm] at h
      exact .inr (.inl (h _ (first_contains hm)))

theorem netCmp_spec (m n : Network) :
    (netCmp m n = 1 ∧ Before n m) ∨ (netCmp m n = -1 ∧ Before m n) ∨
      (netCmp m n = 0 ∧ SameBlock m n) := by
  have h := addrCmp_spec m.first n.first
  have e : netCmp m n = if addrCmp m.first n.first ≠ 0 then addrCmp m.first n.first
    else if m.pfx > n.pfx then 1 else if m.pfx < n.pfx then -1 else 0 := rfl
  unfold Before SameBlock
  by_cases h0 : addrCmp m.first n.first = 0
  · rw [if_neg (by simpa using h0)] at e
    have : value m.first = value n.first := by omega
    by_cases h1 : m.pfx > n.pfx
    · rw [if_pos h1] at e; omega
    · rw [if_neg h1] at e
      by_cases h2 : m.pfx < n.pfx
      · rw [if_pos h2] at e; omega
      · rw [if_neg h2] at e; omega
  · rw [if_pos h0] at e
    omega

theorem before_irrefl (n : Network) : ¬ Before n n := by unfold Before; omega

theorem before_trans {a b c : Network} (h1 : Before a b) (h2 : Before b c) : Before a c := by
  unfold Before at *; omega

theorem before_asymm {a b : Network} (h1 : Before a b) : ¬ Before b a := by
  unfold Before at *; omega

theorem before_not_same {a b : Network} (h1 : Before a b) : ¬ SameBlock a b := by
  unfold Before SameBlock at *; omega

theorem before_trichotomy (a b : Network) : Before a b ∨ SameBlock a b ∨ Before b a := by
  unfold Before SameBlock; omega

theorem netCmp_pos {m n : Network} : netCmp m n > 0 ↔ Before n m := by
  have := netCmp_spec m n; have h1 := @before_asymm m n; have h2 := @before_not_same n m
  have h3 := @before_not_same m n
  unfold Before SameBlock at *; omega

theorem netCmp_neg {m n : Network} : netCmp m n < 0 ↔ Before m n := by
  have := netCmp_spec m n
  unfold Before SameBlock at *; omega

theorem netCmp_zero {m n : Network} : netCmp m n = 0 ↔ SameBlock m n := by
  have := netCmp_spec m n
  unfold Before SameBlock at *; omega

theorem sameBlock_iff_path {m n : Network} (hm : Block m) (hn : Block n) :
    SameBlock m n ↔ path m = path n := by
  constructor
  · intro ⟨h1, h2⟩
    rw [path, path, h2, value_inj h1]
  · intro h
    have hl := congrArg List.length h
    rw [length_path hm.le, length_path hn.le] at hl
    refine ⟨?_, hl⟩
    rw [natOfBits_path hm, natOfBits_path hn, h, hl]

theorem sameBlock_fields {m n : Network} (hm : Block m) (hn : Block n) (h : SameBlock m n) :
    m.first = n.first ∧ m.last = n.last ∧ m.pfx = n.pfx ∧ m.family = n.family := by
  have hf := value_inj h.1
  refine ⟨hf, ?_, h.2, ?_⟩
  · apply value_inj
    rw [hm.last_eq, hn.last_eq, h.1, h.2]
  · have h1 := hm.fam
    have h2 := hn.fam
    rw [hf] at h1
    cases e1 : m.family <;> cases e2 : n.family <;> simp_all

/-- paths that diverge are ordered by the diverging bit, whatever follows -/
theorem before_of_diverge {m n : Network} (hm : Block m) (hn : Block n) {w : List Bool}
    (h1 : w ++ [false] <+: path m) (h2 : w ++ [true] <+: path n) : value m.last < value n.first := by
  have a1 := h1.trans ((contains_iff_path hm _).mp (last_contains hm))
  have a2 := h2.trans ((contains_iff_path hn _).mp (first_contains hn))
  have hwl : (w ++ [false]).length ≤ 128 := by
    have := a1.length_le; simpa using this
  have hwl2 : (w ++ [true]).length ≤ 128 := by
    have := a2.length_le; simpa using this
  rw [isPrefix_bits_iff _ _ hwl] at a1
  rw [isPrefix_bits_iff _ _ hwl2] at a2
  simp only [List.length_append, List.length_singleton] at a1 a2 hwl
  rw [natOfBits_append] at a1 a2
  have e1 : natOfBits [false] = 0 := rfl
  have e2 : natOfBits [true] = 1 := rfl
  rw [e1] at a1
  rw [e2] at a2
  have hp := Nat.two_pow_pos (128 - (w.length + 1))
  generalize 2 ^ (128 - (w.length + 1)) = P at *
  have d1 := Nat.lt_div_mul_add (a := value m.last) hp
  have d2 := Nat.div_mul_le_self (value n.first) P
  rw [← a1] at d1
  rw [← a2, Nat.add_mul] at d2
  simp at d1 d2
  omega

theorem before_of_prefix {m n : Network} (hm : Block m) (hn : Block n)
    (h : path m <+: path n) (hne : path m ≠ path n) : Before m n := by
  have hl := h.length_le
  rw [length_path hm.le, length_path hn.le] at hl
  have hne' : m.pfx ≠ n.pfx := by
    intro e
    apply hne
    apply h.eq_of_length
    rw [length_path hm.le, length_path hn.le, e]
  have := ((path_prefix_iff hm hn).mp h _ (first_contains hn)).1
  unfold Before; omega

/-- two bit strings: one extends the other or they diverge -/
theorem path_cases (x y : List Bool) : x <+: y ∨ y <+: x ∨
    (∃ w, w ++ [false] <+: x ∧ w ++ [true] <+: y) ∨ (∃ w, w ++ [true] <+: x ∧ w ++ [false] <+: y) := by
  induction x generalizing y with
  | nil => exact .inl (List.nil_prefix)
  | cons b x ih =>
    cases y with
    | nil => exact .inr (.inl List.nil_prefix)
    | cons c y =>
      by_cases hbc : b = c
      · subst hbc
        rcases ih y with h | h | ⟨w, h1, h2⟩ | ⟨w, h1, h2⟩
        · exact .inl (by simpa [List.cons_prefix_cons] using h)
        · exact .inr (.inl (by simpa [List.cons_prefix_cons] using h))
        · exact .inr (.inr (.inl ⟨b :: w, by simpa [List.cons_prefix_cons] using h1,
            by simpa [List.cons_prefix_cons] using h2⟩))
        · exact .inr (.inr (.inr ⟨b :: w, by simpa [List.cons_prefix_cons] using h1,
            by simpa [List.cons_prefix_cons] using h2⟩))
      · cases b <;> cases c <;> simp at hbc
        · exact .inr (.inr (.inl ⟨[], by simp, by simp⟩))
        · exact .inr (.inr (.inr ⟨[], by simp, by simp⟩))

end Loc
