import Verif.Lemmas.Path
/-
Helper lemmas: creating, splitting and merging networks.
-/
namespace Loc
open Spec

theorem take_bits_eq_iff (a b : Addr) (p : Nat) (hp : p ≤ 128) :
    (bits a).take p = (bits b).take p ↔ ∀ i, i < p → getBit a i = getBit b i := by
  constructor
  · intro h i hi
    have h1 := getElem_bits a i (by simp; omega)
    have h2 := getElem_bits b i (by simp; omega)
    have e1 : ((bits a).take p)[i]'(by simp; omega) = getBit a i := by simp [h1]
    have e2 : ((bits b).take p)[i]'(by simp; omega) = getBit b i := by simp [h2]
    rw [← e1, ← e2]
    simp only [h]
  · intro h
    apply List.ext_getElem
    · simp
    · intro i h1 h2
      simp at h1
      simp [getElem_bits, h i (by omega)]

/-- bits of the block of IPv4 addresses -/
def v4path : List Bool := List.replicate 80 false ++ List.replicate 16 true

theorem length_v4path : v4path.length = 96 := by decide

theorem v4path_getElem (i : Nat) (h : i < v4path.length) : v4path[i] = v4bit i := by
  have : ∀ i : Fin 96, v4path[i.val]? = some (v4bit i.val) := by decide
  rw [length_v4path] at h
  have := this ⟨i, h⟩
  simpa [List.getElem?_eq_getElem, length_v4path, h] using this

theorem isV4Mapped_iff_path (a : Addr) : isV4Mapped a = true ↔ v4path <+: bits a := by
  rw [isV4Mapped_iff_bits, List.prefix_iff_eq_take, length_v4path]
  constructor
  · intro h
    apply List.ext_getElem
    · simp [length_v4path]
    · intro i h1 h2
      rw [v4path_getElem]
      rw [length_v4path] at h1
      simp [getElem_bits, h i h1]
  · intro h i hi
    have h2 : ((bits a).take 96)[i]'(by simp; omega) = getBit a i := by simp [getElem_bits]
    have h1 := v4path_getElem i (by rw [length_v4path]; exact hi)
    rw [← h2, ← h1]
    simp only [h]

theorem block_v4_iff {n : Network} (h : Block n) : n.family = .inet ↔ v4path <+: path n := by
  rw [h.fam, ← isV4Mapped_iff, isV4Mapped_iff_path]
  constructor
  · intro hv
    have hp := (contains_iff_path h _).mp (first_contains h)
    rcases prefix_or_prefix hv hp with h1 | h1
    · exact h1
    · -- the network is shorter than the IPv4 prefix: then bit 95 is zero
      obtain ⟨t, ht⟩ := h1
      rw [bits_first h, ← ht, List.prefix_append_right_inj] at hv
      by_cases hnil : t = []
      · rw [← ht, hnil]; simp
      · exfalso
        have hlast : t.getLast hnil = true := by
          have : (path n ++ t).getLast (by simp [hnil]) = v4path.getLast (by decide) := by
            simp only [ht]
          rw [List.getLast_append_of_ne_nil _ hnil] at this
          rw [this]; decide
        have hm := List.getLast_mem hnil
        rw [hlast] at hm
        have := hv.subset hm
        simp at this
  · intro hv
    exact hv.trans ((contains_iff_path h _).mp (first_contains h))

theorem block_v4_pfx {n : Network} (h : Block n) (hf : n.family = .inet) : 96 ≤ n.pfx := by
  have := ((block_v4_iff h).mp hf).length_le
  rwa [length_v4path, length_path h.le] at this

theorem family_first {n : Network} (h : Block n) : n.family = addrFamily n.first := by
  have h1 := h.fam
  rw [← isV4Mapped_iff] at h1
  unfold addrFamily
  cases e : n.family <;> cases e2 : isV4Mapped n.first <;> simp_all

theorem famStart_first {n : Network} (h : Block n) : famStart n.first + netPrefix n = n.pfx := by
  have h1 := h.fam
  rw [← isV4Mapped_iff] at h1
  have h2 := block_v4_pfx h
  unfold famStart netPrefix
  cases e : n.family <;> cases e2 : isV4Mapped n.first <;> simp_all

theorem validPrefix_iff (a : Addr) (p : Nat) : validPrefix a p = true ↔ famStart a + p ≤ 128 := by
  unfold validPrefix famStart addrFamily familyBitLength
  cases isV4Mapped a <;> simp <;> omega

/-! ### loc_network_new -/

theorem family_masked (a : Addr) (p : Nat) (hp : famStart a + p ≤ 128) :
    isV4Mapped (addrAnd a (prefixToBitmask (famStart a + p))) = isV4Mapped a := by
  rw [Bool.eq_iff_iff, isV4Mapped_iff_bits, isV4Mapped_iff_bits]
  have hb : ∀ i, i < 128 → getBit (addrAnd a (prefixToBitmask (famStart a + p))) i
      = (getBit a i && decide (i < famStart a + p)) := by
    intro i hi
    rw [getBit_and _ _ _ hi, getBit_mask _ _ hp hi]
  constructor
  · intro h
    have h95 := h 95 (by omega)
    rw [hb 95 (by omega)] at h95
    have hlt : 95 < famStart a + p := by
      by_cases hh : 95 < famStart a + p
      · exact hh
      · simp [hh, v4bit] at h95
    intro i hi
    have := h i hi
    rw [hb i (by omega)] at this
    have hlt2 : i < famStart a + p := by omega
    simpa [hlt2] using this
  · intro h i hi
    have hfs : famStart a = 96 := by
      unfold famStart
      rw [(isV4Mapped_iff_bits a).mpr h]; rfl
    rw [hb i (by omega), h i hi]
    have hlt2 : i < famStart a + p := by omega
    simp [hlt2]

theorem newNetwork_ok (a : Addr) (p : Nat) (hp : famStart a + p ≤ 128) :
    ∃ n, newNetwork a p = .ok n ∧ Block n ∧ n.pfx = famStart a + p ∧
      path n = (bits a).take (famStart a + p) ∧ n.family = addrFamily a ∧
      n.cc0 = 0 ∧ n.cc1 = 0 ∧ n.asn = 0 ∧ n.flags = 0 := by
  have hv := (validPrefix_iff a p).mpr hp
  have hraw : (if isV4Mapped a = true then p + 96 else p) = famStart a + p := by
    unfold famStart; cases isV4Mapped a <;> simp <;> omega
  refine ⟨_, by simp [newNetwork, hv]; rfl, ?_⟩
  simp only [hraw]
  have hfirst := value_masked a _ hp
  have hlast := value_filled (addrAnd a (prefixToBitmask (famStart a + p))) _ hp
  have hpos := Nat.two_pow_pos (128 - (famStart a + p))
  refine ⟨⟨hp, ?_, ?_, ?_⟩, trivial, ?_, ?_, by trivial⟩
  · simp only
    rw [hfirst]; exact Nat.mul_mod_left _ _
  · simp only
    rw [hlast, hfirst, Nat.mul_div_cancel _ hpos]
  · simp only [addrFamily]
    rw [← isV4Mapped_iff]
    cases isV4Mapped (addrAnd a (prefixToBitmask (famStart a + p))) <;> simp
  · unfold path
    simp only
    rw [take_bits_eq_iff _ _ _ hp]
    intro i hi
    rw [getBit_and _ _ _ (by omega), getBit_mask _ _ hp (by omega)]
    simp [hi]
  · simp only [addrFamily, family_masked a p hp]

theorem newNetwork_err (a : Addr) (p : Nat) (hp : ¬ famStart a + p ≤ 128) :
    newNetwork a p = .error (.err EINVAL) := by
  have : validPrefix a p = false := by
    cases h : validPrefix a p
    · rfl
    · exact absurd ((validPrefix_iff a p).mp h) hp
  simp [newNetwork, this]

/-! ### properties -/

theorem isUpper_iff (c : Byte) : isUpper c = true ↔ 65 ≤ c.toNat ∧ c.toNat ≤ 90 := by
  unfold isUpper
  have e1 : (65 : BitVec 8).toNat = 65 := rfl
  have e2 : (90 : BitVec 8).toNat = 90 := rfl
  simp only [Bool.not_eq_true', Bool.or_eq_false_iff, decide_eq_false_iff_not, BitVec.lt_def,
    gt_iff_lt, e1, e2]
  omega

theorem ccIsValid_iff (s : CStr) : ccIsValid (some s) = true ↔ ValidCC s := by
  unfold ccIsValid ValidCC
  match s with
  | [] => simp
  | [c] => simp
  | [c0, c1] =>
    have e : (c0 == 88) = decide (c0.toNat = 88) := by
      have : (88 : BitVec 8).toNat = 88 := rfl
      rw [Bool.eq_iff_iff]
      simp only [beq_iff_eq, decide_eq_true_eq]
      constructor
      · intro h; rw [h]; exact this
      · intro h; exact BitVec.eq_of_toNat_eq h
    have h0 := isUpper_iff c0
    have h1 := isUpper_iff c1
    constructor
    · intro h
      refine ⟨c0, c1, rfl, ?_⟩
      cases hc0 : isUpper c0 <;> cases hc1 : isUpper c1 <;> simp_all
    · rintro ⟨d0, d1, hd, h2, h3, h4, h5, h6⟩
      simp only [List.cons.injEq, and_true] at hd
      obtain ⟨rfl, rfl⟩ := hd
      simp only [h0.mpr ⟨h2, h3⟩, h1.mpr ⟨h4, h5⟩, e, h6]
      rfl
  | c0 :: c1 :: c2 :: t => simp

theorem validCC_ne_zero {c0 c1 : Byte} (h : ValidCC [c0, c1]) : c0 ≠ 0 ∧ c1 ≠ 0 := by
  obtain ⟨d0, d1, hd, h2, h3, h4, h5, h6⟩ := h
  simp only [List.cons.injEq, and_true] at hd
  obtain ⟨rfl, rfl⟩ := hd
  constructor <;> (intro e; subst e; simp at *)

theorem copyProps_spec (d s : Network) (hs : CountryOk s)
    (hd : d.cc0 = 0 ∧ d.cc1 = 0 ∧ d.asn = 0 ∧ d.flags = 0) :
    copyProps d s = { d with cc0 := s.cc0, cc1 := if s.cc0 = 0 then 0 else s.cc1,
                             asn := s.asn, flags := s.flags } := by
  obtain ⟨h1, h2, h3, h4⟩ := hd
  have hset : ignoreErr (setCountryCode d (some (countryCode s))) d
      = { d with cc0 := s.cc0, cc1 := if s.cc0 = 0 then 0 else s.cc1 } := by
    unfold countryCode ccString
    rcases hs with h0 | hv
    · rw [if_pos h0, if_pos h0, h0]
      show ({ d with cc0 := 0 } : Network) = { d with cc0 := 0, cc1 := 0 }
      cases d; simp_all
    · obtain ⟨z0, z1⟩ := validCC_ne_zero hv
      rw [if_neg z0, if_neg z1, if_neg z0]
      simp only [setCountryCode, (ccIsValid_iff _).mpr hv]
      rfl
  unfold copyProps
  rw [hset]
  have e4 : ∀ f : BitVec 32, (0 : BitVec 32) ||| f = f := by intro f; simp
  by_cases ha : s.asn = 0
  · simp only [ha, ne_eq, not_true_eq_false, if_false, setFlag, h4, e4, h3]
  · simp only [ne_eq, ha, not_false_eq_true, if_true, setFlag, setAsn, h4, e4]

theorem Spec.Block.with_props {n : Network} (h : Block n) (c0 c1 : Byte) (asn flags : BitVec 32) :
    Block { n with cc0 := c0, cc1 := c1, asn := asn, flags := flags } :=
  ⟨h.le, h.aligned, h.last_eq, h.fam⟩

theorem props_eq (n : Network) : props n = (countryCode n, n.asn, n.flags) := rfl

/-! ### loc_network_subnets -/

/-- the blocks ::/79 and ::fffe:0:0/95, which the code cannot split -/
def unsplittable (w : List Bool) : Prop :=
  w = List.replicate 79 false ∨ w = List.replicate 80 false ++ List.replicate 15 true

instance (w : List Bool) : Decidable (unsplittable w) := inferInstanceAs (Decidable (_ ∨ _))

/-- A network carrying the given block and properties `src`. -/
structure Piece (src : Network) (w : List Bool) (m : Network) : Prop where
  block : Block m
  path_eq : path m = w
  cc0 : m.cc0 = src.cc0
  cc1 : m.cc1 = if src.cc0 = 0 then 0 else src.cc1
  asn : m.asn = src.asn
  flags : m.flags = src.flags

theorem Piece.props {src : Network} {w : List Bool} {m : Network} (h : Piece src w m) :
    props m = props src := by
  simp only [Spec.props, h.cc0, h.cc1, h.asn, h.flags]
  by_cases h0 : src.cc0 = 0
  · rw [if_pos h0, if_pos h0]
  · rw [if_neg h0, if_neg h0, if_neg h0]

theorem Piece.countryOk {src : Network} {w : List Bool} {m : Network} (h : Piece src w m)
    (hs : CountryOk src) : CountryOk m := by
  unfold CountryOk at *
  rw [h.cc0, h.cc1]
  rcases hs with h0 | hv
  · exact .inl h0
  · right
    rw [if_neg (validCC_ne_zero hv).1]; exact hv

theorem Piece.family {src : Network} {w : List Bool} {m : Network} (h : Piece src w m) :
    m.family = if v4path <+: w then .inet else .inet6 := by
  have := block_v4_iff h.block
  rw [h.path_eq] at this
  by_cases hv : v4path <+: w
  · rw [if_pos hv]; exact this.mpr hv
  · rw [if_neg hv]
    cases e : m.family
    · exact absurd (this.mp e) hv
    · rfl

theorem value_addrInc_of_ne {a : Addr} (h : value a ≠ famMax a) : value (addrInc a) = value a + 1 := by
  rw [value_addrInc, if_neg h]

theorem natOfBits_concat (w : List Bool) (b : Bool) : natOfBits (w ++ [b]) = 2 * natOfBits w + b.toNat := by
  rw [natOfBits_append]
  simp [natOfBits]
  ring

theorem subnets_host (n : Network) (hb : Block n) (h : n.pfx = 128) :
    subnets n = .error (.err EINVAL) := by
  have hfs := famStart_first hb
  have : validPrefix n.first (netPrefix n + 1) = false := by
    cases e : validPrefix n.first (netPrefix n + 1)
    · rfl
    · have := (validPrefix_iff _ _).mp e; omega
  unfold subnets
  simp [this]; rfl

/-- `m` and the first half -/
theorem subnets_first (n : Network) (hb : Block n) (h : n.pfx < 128) :
    ∃ s, newNetwork n.first (netPrefix n + 1) = .ok s ∧ Block s ∧ path s = path n ++ [false] ∧
      s.pfx = n.pfx + 1 ∧ s.cc0 = 0 ∧ s.cc1 = 0 ∧ s.asn = 0 ∧ s.flags = 0 := by
  have hfs := famStart_first hb
  obtain ⟨s, hs, hbs, hpfx, hpath, -, h1, h2, h3, h4⟩ := newNetwork_ok n.first (netPrefix n + 1) (by omega)
  have hpf : famStart n.first + (netPrefix n + 1) = n.pfx + 1 := by omega
  rw [hpf] at hpath hpfx
  refine ⟨s, hs, hbs, ?_, hpfx, h1, h2, h3, h4⟩
  rw [hpath, bits_first hb]
  have hl := length_path hb.le
  rw [List.take_append, hl, List.take_of_length_le (by omega)]
  have e : n.pfx + 1 - n.pfx = 1 := by omega
  have e2 : 128 - n.pfx = (128 - n.pfx - 1) + 1 := by omega
  rw [e, e2, List.replicate_succ]
  rfl

theorem value_half {n s : Network} (hb : Block n) (hs : Block s) (hp : path s = path n ++ [false])
    (h : n.pfx < 128) :
    value s.last + 1 = natOfBits (path n ++ [true]) * 2 ^ (128 - (n.pfx + 1)) := by
  have hpfx : s.pfx = n.pfx + 1 := by
    have := congrArg List.length hp
    rw [length_path hs.le] at this
    simpa [length_path hb.le] using this
  rw [value_last_path hs, hp, hpfx, natOfBits_concat, natOfBits_concat]
  have := Nat.two_pow_pos (128 - (n.pfx + 1))
  generalize 2 ^ (128 - (n.pfx + 1)) = P at *
  simp only [Bool.toNat_false, Bool.toNat_true, Nat.add_zero, Nat.add_mul]
  omega

theorem odd_mul_pow (q k j : Nat) (h : (2 * q + 1) * 2 ^ k = 2 ^ j) : q = 0 ∧ k = j := by
  have hk : k ≤ j := by
    by_cases hh : k ≤ j
    · exact hh
    · have : 2 ^ j < 2 ^ k := Nat.pow_lt_pow_right (by omega) (by omega)
      have h2 : 1 * 2 ^ k ≤ (2 * q + 1) * 2 ^ k := Nat.mul_le_mul_right _ (by omega)
      omega
  obtain ⟨d, rfl⟩ : ∃ d, j = k + d := ⟨j - k, by omega⟩
  rw [Nat.pow_add, Nat.mul_comm (2 ^ k)] at h
  have h := Nat.eq_of_mul_eq_mul_right (Nat.two_pow_pos k) h
  cases d with
  | zero => simp at h; omega
  | succ d => rw [Nat.pow_succ] at h; omega

theorem natOfBits_eq_zero {w : List Bool} (h : natOfBits w = 0) : w = List.replicate w.length false := by
  apply natOfBits_inj
  · simp
  · rw [h, natOfBits_replicate_false]

/-- The last address of the lower half is the last IPv4 address only for ::/79. -/
theorem half_last_max {n s : Network} (hb : Block n) (hs : Block s) (hp : path s = path n ++ [false])
    (h : n.pfx < 128) (hmax : value s.last = famMax s.last) :
    path n = List.replicate 79 false := by
  have hv := value_half hb hs hp h
  have hlt := value_lt s.last
  have hnl := natOfBits_lt (path n ++ [true])
  unfold famMax at hmax
  by_cases hv4 : IsV4 s.last
  · rw [if_pos hv4] at hmax
    rw [hmax, natOfBits_concat] at hv
    have : (0xffffffffffff + 1 : Nat) = 2 ^ 48 := by decide
    rw [this] at hv
    obtain ⟨h1, h2⟩ := odd_mul_pow _ _ _ hv.symm
    have := natOfBits_eq_zero h1
    rw [length_path hb.le] at this
    have e : n.pfx = 79 := by omega
    rw [e] at this
    exact this
  · exfalso
    rw [if_neg hv4] at hmax
    rw [hmax] at hv
    have hlen : (path n ++ [true]).length = n.pfx + 1 := by simp [length_path hb.le]
    rw [hlen] at hnl
    have hpw : (2 ^ 128 : Nat) = 2 ^ (n.pfx + 1) * 2 ^ (128 - (n.pfx + 1)) := by
      rw [← Nat.pow_add]; congr 1; omega
    have hpos := Nat.two_pow_pos (128 - (n.pfx + 1))
    have h3 : natOfBits (path n ++ [true]) * 2 ^ (128 - (n.pfx + 1))
        < 2 ^ (n.pfx + 1) * 2 ^ (128 - (n.pfx + 1)) := (Nat.mul_lt_mul_right hpos).mpr hnl
    have h4 : (2 ^ 128 : Nat) - 1 + 1 = 2 ^ 128 := by decide
    omega

theorem take_bits_of_value {a : Addr} {w : List Bool} {p : Nat} (hw : w.length = p) (hp : p ≤ 128)
    (h : value a = natOfBits w * 2 ^ (128 - p)) : (bits a).take p = w := by
  apply natOfBits_inj
  · simp [hp, hw]
  · rw [natOfBits_take _ _ hp, h, Nat.mul_div_cancel _ (Nat.two_pow_pos _)]

theorem bits_of_value {a : Addr} {w : List Bool} {p : Nat} (hw : w.length = p) (hp : p ≤ 128)
    (h : value a = natOfBits w * 2 ^ (128 - p)) : bits a = w ++ List.replicate (128 - p) false := by
  apply natOfBits_inj
  · simp [hw]; omega
  · rw [← value_eq_natOfBits, h, natOfBits_append, natOfBits_replicate_false]; simp

theorem prefix_append_false {x w : List Bool} {k : Nat} (hx : x ≠ []) (hlast : x.getLast hx = true)
    (h : x <+: w ++ List.replicate k false) : x <+: w := by
  rcases prefix_or_prefix h (List.prefix_append w (List.replicate k false)) with h1 | h1
  · exact h1
  · obtain ⟨t, ht⟩ := h1
    rw [← ht, List.prefix_append_right_inj] at h
    by_cases hnil : t = []
    · rw [← ht, hnil]; simp
    · exfalso
      have hl : t.getLast hnil = true := by
        have e : (w ++ t).getLast (by simp [hnil]) = x.getLast hx := by simp only [ht]
        rw [List.getLast_append_of_ne_nil _ hnil] at e
        rw [e, hlast]
      have hm := List.getLast_mem hnil
      rw [hl] at hm
      have := h.subset hm
      simp at this

theorem v4path_getLast : v4path.getLast (by decide) = true := by decide

theorem v4path_concat : v4path = (List.replicate 80 false ++ List.replicate 15 true) ++ [true] := by decide

theorem subnets_ok (n : Network) (hb : Block n) (hc : CountryOk n) (h : n.pfx < 128)
    (hu : ¬ unsplittable (path n)) :
    ∃ s1 s2, subnets n = .ok (s1, s2) ∧ Piece n (path n ++ [false]) s1 ∧ Piece n (path n ++ [true]) s2 := by
  have hfs := famStart_first hb
  have hvalid := (validPrefix_iff n.first (netPrefix n + 1)).mpr (by omega)
  obtain ⟨t1, ht1, hbt1, hpt1, hpfx1, h1, h2, h3, h4⟩ := subnets_first n hb h
  have hnm : value t1.last ≠ famMax t1.last := by
    intro e
    exact hu (.inl (half_last_max hb hbt1 hpt1 h e))
  have hinc := value_addrInc_of_ne hnm
  rw [value_half hb hbt1 hpt1 h] at hinc
  have hlen : (path n ++ [true]).length = n.pfx + 1 := by simp [length_path hb.le]
  have hbits := bits_of_value hlen (by omega) hinc
  have hfam : famStart (addrInc t1.last) = famStart n.first := by
    unfold famStart
    have : isV4Mapped (addrInc t1.last) = isV4Mapped n.first := by
      rw [Bool.eq_iff_iff, isV4Mapped_iff_path, isV4Mapped_iff_path, hbits]
      constructor
      · intro hh
        have hh := prefix_append_false (by decide) v4path_getLast hh
        rcases prefix_or_prefix hh (List.prefix_append (path n) [true]) with h5 | h5
        · exact h5.trans ((contains_iff_path hb _).mp (first_contains hb))
        · have hlen2 := hh.length_le
          rw [hlen, length_v4path] at hlen2
          have hlen3 := h5.length_le
          rw [length_v4path, length_path hb.le] at hlen3
          by_cases h96 : n.pfx = 96
          · have h7 := h5.eq_of_length (by rw [length_path hb.le, length_v4path, h96])
            rw [← h7]
            exact (contains_iff_path hb _).mp (first_contains hb)
          · exfalso
            apply hu
            right
            have h95 : n.pfx = 95 := by omega
            have h8 := hh.eq_of_length (by rw [length_v4path, hlen, h95])
            rw [v4path_concat] at h8
            exact (List.append_inj_left h8 (by simp [length_path hb.le, h95])).symm
      · intro hh
        have hv : v4path <+: path n := (block_v4_iff hb).mp (by
          rw [hb.fam, ← isV4Mapped_iff, isV4Mapped_iff_path]; exact hh)
        exact hv.trans ((List.prefix_append _ _).trans (List.prefix_append _ _))
    rw [this]
  obtain ⟨t2, ht2, hbt2, hpfx2, hpt2, -, g1, g2, g3, g4⟩ :=
    newNetwork_ok (addrInc t1.last) (netPrefix n + 1) (by omega)
  have hpf : famStart (addrInc t1.last) + (netPrefix n + 1) = n.pfx + 1 := by omega
  rw [hpf] at hpfx2 hpt2
  refine ⟨copyProps t1 n, copyProps t2 n, ?_, ?_, ?_⟩
  · unfold subnets
    simp only [hvalid, Bool.not_true, Bool.false_eq_true, if_false, ht1, ht2, bind, Except.bind, pure,
      Except.pure]
  · rw [copyProps_spec _ _ hc ⟨h1, h2, h3, h4⟩]
    exact ⟨hbt1.with_props _ _ _ _, hpt1, rfl, rfl, rfl, rfl⟩
  · rw [copyProps_spec _ _ hc ⟨g1, g2, g3, g4⟩]
    refine ⟨hbt2.with_props _ _ _ _, ?_, rfl, rfl, rfl, rfl⟩
    show path t2 = _
    rw [hpt2]
    exact take_bits_of_value hlen (by omega) hinc

end Loc
