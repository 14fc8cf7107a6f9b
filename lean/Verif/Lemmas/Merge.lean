import Verif.Lemmas.Network
/-
`loc_network_subnets` on the two special blocks; `loc_network_merge`.
-/
namespace Loc
open Spec

theorem eq_of_bits_first {n : Network} {a : Addr} (hb : Block n) {w : List Bool} (hw : path n = w)
    (h : bits a = w ++ List.replicate (128 - w.length) false) : n.first = a := by
  apply bits_inj
  rw [bits_first hb, h, hw]
  have := congrArg List.length hw
  rw [length_path hb.le] at this
  rw [this]

/-- the first address of ::fffe:0:0/95 -/
def addr_fffe : Addr := #v[0,0,0,0, 0,0,0,0, 0,0,0xff,0xfe, 0,0,0,0]

theorem subnets_second_err {n : Network} {s1 : Network} {e : Fault}
    (h1 : newNetwork n.first (netPrefix n + 1) = .ok s1)
    (h2 : newNetwork (addrInc s1.last) (netPrefix n + 1) = .error e)
    (hv : validPrefix n.first (netPrefix n + 1) = true) : subnets n = .error e := by
  unfold subnets
  simp only [hv, Bool.not_true, Bool.false_eq_true, if_false, h1, h2, bind, Except.bind, pure,
    Except.pure]

def net_z80 : Network :=
  { family := .inet6, first := addrReset .inet6
    last := #v[0,0,0,0, 0,0,0,0, 0,0,0xff,0xff, 0xff,0xff,0xff,0xff]
    pfx := 80, cc0 := 0, cc1 := 0, asn := 0, flags := 0 }

def net_fffe96 : Network :=
  { family := .inet6, first := addr_fffe
    last := #v[0,0,0,0, 0,0,0,0, 0,0,0xff,0xfe, 0xff,0xff,0xff,0xff]
    pfx := 96, cc0 := 0, cc1 := 0, asn := 0, flags := 0 }

theorem new_z80 : newNetwork (addrReset .inet6) 80 = .ok net_z80 := by rfl
theorem new_z80' : newNetwork (addrInc net_z80.last) 80 = .error (.err EINVAL) := by rfl
theorem new_fffe : newNetwork addr_fffe 96 = .ok net_fffe96 := by rfl
theorem new_fffe' : newNetwork (addrInc net_fffe96.last) 96 = .error (.err EINVAL) := by rfl

theorem subnets_unsplittable (n : Network) (hb : Block n) (hu : unsplittable (path n)) :
    subnets n = .error (.err EINVAL) := by
  have hl := length_path hb.le
  rcases hu with hu | hu
  · have hf : n.first = addrReset .inet6 := eq_of_bits_first hb hu (by decide +kernel)
    have hp : n.pfx = 79 := by rw [← hl, hu]; rfl
    have hfam : n.family = .inet6 := by
      cases e : n.family
      · have := block_v4_pfx hb e; omega
      · rfl
    have hnp : netPrefix n + 1 = 80 := by rw [netPrefix, hfam, hp]
    have h1 := new_z80
    have h2 := new_z80'
    rw [← hf, ← hnp] at h1
    rw [← hnp] at h2
    exact subnets_second_err h1 h2 ((validPrefix_iff _ _).mpr (by have := famStart_first hb; omega))
  · have hf : n.first = addr_fffe := eq_of_bits_first hb hu (by decide +kernel)
    have hp : n.pfx = 95 := by rw [← hl, hu]; rfl
    have hfam : n.family = .inet6 := by
      cases e : n.family
      · have := block_v4_pfx hb e; omega
      · rfl
    have hnp : netPrefix n + 1 = 96 := by rw [netPrefix, hfam, hp]
    have h1 := new_fffe
    have h2 := new_fffe'
    rw [← hf, ← hnp] at h1
    rw [← hnp] at h2
    exact subnets_second_err h1 h2 ((validPrefix_iff _ _).mpr (by have := famStart_first hb; omega))

/-! ### loc_network_merge -/

/-- properties as stored (two raw country code bytes) -/
def SameRaw (m n : Network) : Prop :=
  m.cc0 = n.cc0 ∧ m.cc1 = n.cc1 ∧ m.asn = n.asn ∧ m.flags = n.flags

instance (m n : Network) : Decidable (SameRaw m n) := inferInstanceAs (Decidable (_ ∧ _))

theorem SameRaw.props {m n : Network} (h : SameRaw m n) : props m = props n := by
  obtain ⟨h1, h2, h3, h4⟩ := h
  simp [Spec.props, h1, h2, h3, h4]

theorem bv_cases {k : Nat} (a b : BitVec k) : a < b ∨ a = b ∨ b < a := by
  simp only [BitVec.lt_def]
  by_cases h : a = b
  · exact .inr (.inl h)
  · have : a.toNat ≠ b.toNat := fun e => h (BitVec.eq_of_toNat_eq e)
    omega

theorem bv_lt_irrefl {k : Nat} (a : BitVec k) : ¬ a < a := by simp [BitVec.lt_def]

theorem ccCmp_zero (a0 a1 b0 b1 : Byte) : ccCmp a0 a1 b0 b1 = 0 ↔ a0 = b0 ∧ a1 = b1 := by
  unfold ccCmp
  rcases bv_cases a0 b0 with h | rfl | h
  · rw [if_pos h]
    constructor
    · intro e; omega
    · rintro ⟨rfl, _⟩; exact absurd h (bv_lt_irrefl _)
  · rw [if_neg (bv_lt_irrefl _), if_neg (bv_lt_irrefl _)]
    rcases bv_cases a1 b1 with h | rfl | h
    · rw [if_pos h]
      constructor
      · intro e; omega
      · rintro ⟨_, rfl⟩; exact absurd h (bv_lt_irrefl _)
    · rw [if_neg (bv_lt_irrefl _), if_neg (bv_lt_irrefl _)]; simp
    · have hn : ¬ a1 < b1 := by simp only [BitVec.lt_def] at *; omega
      rw [if_neg hn, if_pos h]
      constructor
      · intro e; omega
      · rintro ⟨_, rfl⟩; exact absurd h (bv_lt_irrefl _)
  · have hn : ¬ a0 < b0 := by simp only [BitVec.lt_def] at *; omega
    rw [if_neg hn, if_pos h]
    constructor
    · intro e; omega
    · rintro ⟨rfl, _⟩; exact absurd h (bv_lt_irrefl _)

theorem propertiesCmp_zero (m n : Network) : propertiesCmp m n = 0 ↔ SameRaw m n := by
  have e : propertiesCmp m n = if ccCmp m.cc0 m.cc1 n.cc0 n.cc1 ≠ 0 then ccCmp m.cc0 m.cc1 n.cc0 n.cc1
    else if m.asn > n.asn then 1 else if m.asn < n.asn then -1
    else if m.flags > n.flags then 1 else if m.flags < n.flags then -1 else 0 := rfl
  rw [e]
  have hc := ccCmp_zero m.cc0 m.cc1 n.cc0 n.cc1
  unfold SameRaw
  by_cases h0 : ccCmp m.cc0 m.cc1 n.cc0 n.cc1 = 0
  · obtain ⟨h1, h2⟩ := hc.mp h0
    rw [if_neg (by simpa using h0)]
    simp only [h1, h2, true_and, gt_iff_lt, BitVec.lt_def]
    rw [← BitVec.toNat_inj, ← BitVec.toNat_inj]
    split
    · constructor <;> omega
    · split
      · constructor <;> omega
      · split
        · constructor <;> omega
        · split
          · constructor <;> omega
          · constructor <;> omega
  · rw [if_pos h0]
    constructor
    · intro h; exact absurd h h0
    · rintro ⟨h1, h2, -, -⟩; exact absurd (hc.mpr ⟨h1, h2⟩) h0

theorem getBit_first_eq {n : Network} (hb : Block n) (i : Nat) (hi : i < n.pfx) :
    (path n)[i]? = some (getBit n.first i) := by
  have hle := hb.le
  unfold path
  rw [List.getElem?_take, if_pos hi, List.getElem?_eq_getElem (by simp; omega), getElem_bits]

theorem getBit_first_zero {n : Network} (hb : Block n) (i : Nat) (hi : n.pfx ≤ i) (h : i < 128) :
    getBit n.first i = false := by
  have h1 := getElem_bits n.first i (by simpa using h)
  rw [← h1]
  have h2 := bits_first hb
  have h3 : (bits n.first)[i]? = some false := by
    rw [h2, List.getElem?_append_right (by rw [length_path hb.le]; exact hi), length_path hb.le,
      List.getElem?_replicate, if_pos (by omega)]
  rw [List.getElem?_eq_getElem (by simpa using h)] at h3
  exact Option.some.inj h3

/-- the "cannot shorten" test of `loc_network_merge` -/
theorem bitLength_lt_iff (ctz0 : Nat) (h0 : 8 ≤ ctz0) {n : Network} (hb : Block n) :
    bitLength ctz0 n.first < netPrefix n ↔
      0 < netPrefix n ∧ getBit n.first (n.pfx - 1) = false := by
  obtain ⟨h1, h2, h3⟩ := bitLength_spec ctz0 h0 n.first
  have hfs := famStart_first hb
  have hle := hb.le
  constructor
  · intro h
    exact ⟨by omega, h2 _ (by omega) (by omega)⟩
  · intro ⟨hp, hz⟩
    by_cases hL : bitLength ctz0 n.first = 0
    · omega
    · have h4 := h3 (by omega)
      by_cases hlt : bitLength ctz0 n.first < netPrefix n
      · exact hlt
      · exfalso
        by_cases heq : bitLength ctz0 n.first = netPrefix n
        · rw [heq, hfs, hz] at h4; cases h4
        · rw [getBit_first_zero hb _ (by omega) (by omega)] at h4; cases h4

theorem path_concat_of_bit {n : Network} (hb : Block n) (hp : 0 < n.pfx) (b : Bool)
    (h : getBit n.first (n.pfx - 1) = b) : path n = (path n).dropLast ++ [b] := by
  have hne : path n ≠ [] := by
    intro e
    have := congrArg List.length e
    rw [length_path hb.le] at this
    simp at this; omega
  have h1 := List.dropLast_concat_getLast hne
  have h2 : (path n).getLast hne = b := by
    rw [List.getLast_eq_getElem]
    have := getBit_first_eq hb (n.pfx - 1) (by omega)
    rw [h, List.getElem?_eq_getElem (by rw [length_path hb.le]; omega)] at this
    simp only [length_path hb.le]
    exact Option.some.inj this
  rw [h2] at h1
  exact h1.symm

theorem getBit_of_path_concat {n : Network} (hb : Block n) {w : List Bool} {b : Bool}
    (h : path n = w ++ [b]) : getBit n.first (n.pfx - 1) = b := by
  have hl := congrArg List.length h
  rw [length_path hb.le] at hl
  simp at hl
  have := getBit_first_eq hb (n.pfx - 1) (by omega)
  rw [h] at this
  have e : n.pfx - 1 = w.length := by omega
  rw [e] at this ⊢
  simp at this
  exact this.symm

/-- `n1`, `n2` are the lower and upper half of the block `w`, which is not one of the two blocks
    the code cannot split. -/
def Halves (w : List Bool) (n1 n2 : Network) : Prop :=
  path n1 = w ++ [false] ∧ path n2 = w ++ [true] ∧ ¬ unsplittable w

theorem v4path_concat_iff (w : List Bool) (b : Bool) :
    v4path <+: w ++ [b] ↔ v4path <+: w ∨ (w = List.replicate 80 false ++ List.replicate 15 true ∧ b = true) := by
  rw [List.prefix_concat_iff]
  constructor
  · rintro (h | h)
    · right
      rw [v4path_concat] at h
      have := List.append_inj' h rfl
      exact ⟨this.1.symm, by simpa using this.2.symm⟩
    · exact .inl h
  · rintro (h | ⟨rfl, rfl⟩)
    · exact .inr h
    · exact .inl (by decide)

theorem halves_family {w : List Bool} {n1 n2 : Network} (hb1 : Block n1) (hb2 : Block n2)
    (h : Halves w n1 n2) : n1.family = n2.family := by
  obtain ⟨h1, h2, hu⟩ := h
  have f1 := block_v4_iff hb1
  have f2 := block_v4_iff hb2
  rw [h1, v4path_concat_iff] at f1
  rw [h2, v4path_concat_iff] at f2
  have hu : w ≠ List.replicate 80 false ++ List.replicate 15 true := fun e => hu (.inr e)
  simp only [hu, false_and, or_false] at f1 f2
  rw [← f2] at f1
  cases e1 : n1.family <;> cases e2 : n2.family <;> simp_all

/-- the block one bit shorter -/
theorem parent_block {n : Network} (hb : Block n) {w : List Bool} {b : Bool} (hp : path n = w ++ [b])
    (h0 : 0 < netPrefix n) :
    ∃ m, newNetwork n.first (netPrefix n - 1) = .ok m ∧ Block m ∧ path m = w ∧ m.pfx = n.pfx - 1 := by
  have hfs := famStart_first hb
  have hle := hb.le
  obtain ⟨m, hm, hbm, hpfx, hpath, -⟩ := newNetwork_ok n.first (netPrefix n - 1) (by omega)
  refine ⟨m, hm, hbm, ?_, by omega⟩
  rw [hpath]
  have e : famStart n.first + (netPrefix n - 1) = n.pfx - 1 := by omega
  have hl := congrArg List.length hp
  rw [length_path hle] at hl
  simp at hl
  have hl' : n.pfx - 1 = w.length := by omega
  rw [e, bits_first hb, hp, hl', List.append_assoc, List.take_left]

theorem halves_netPrefix {w : List Bool} {n : Network} (hb : Block n) (h : path n = w ++ [false]) :
    0 < netPrefix n := by
  have hfs := famStart_first hb
  have hl := congrArg List.length h
  rw [length_path hb.le] at hl
  simp at hl
  unfold netPrefix
  cases e : n.family
  · have := (block_v4_iff hb).mp e
    rw [h, v4path_concat_iff] at this
    simp only [Bool.false_eq_true, and_false, or_false] at this
    have := this.length_le
    rw [length_v4path] at this
    show 0 < n.pfx - 96
    omega
  · show 0 < n.pfx
    omega

theorem mergeNetworks_halves (ctz0 : Nat) (h0 : 8 ≤ ctz0) {w : List Bool} {n1 n2 : Network}
    (hb1 : Block n1) (hb2 : Block n2) (h : Halves w n1 n2) (hr : SameRaw n1 n2) :
    ∃ m, mergeNetworks ctz0 n1 n2 = .ok (some m) ∧ Block m ∧ path m = w ∧ SameRaw m n1 := by
  have hfam := halves_family hb1 hb2 h
  obtain ⟨h1, h2, hu⟩ := h
  have hnp := halves_netPrefix hb1 h1
  obtain ⟨m, hm, hbm, hpm, hmp⟩ := parent_block hb1 h1 hnp
  have l1 := congrArg List.length h1
  have l2 := congrArg List.length h2
  rw [length_path hb1.le] at l1
  rw [length_path hb2.le] at l2
  simp at l1 l2
  have hbl := (bitLength_lt_iff ctz0 h0 hb1).mpr ⟨hnp, getBit_of_path_concat hb1 h1⟩
  have hle1 := hb1.le
  have hnm : value n1.last ≠ famMax n1.last := by
    intro e
    apply hu
    left
    rw [← hpm]
    exact half_last_max hbm hb1 (by rw [h1, hpm]) (by omega) e
  have hinc := value_addrInc_of_ne hnm
  rw [value_half hbm hb1 (by rw [h1, hpm]) (by omega)] at hinc
  have hcmp : addrCmp (addrInc n1.last) n2.first = 0 := by
    rw [addrCmp_zero]
    apply value_inj
    rw [hinc, natOfBits_path hb2, h2, hpm]
    have : m.pfx + 1 = n2.pfx := by omega
    rw [this]
  refine ⟨{ m with cc0 := n1.cc0, cc1 := n1.cc1, asn := n1.asn, flags := n1.flags }, ?_,
    hbm.with_props _ _ _ _, hpm, rfl, rfl, rfl, rfl⟩
  unfold mergeNetworks
  rw [if_neg (by simpa using hfam), if_neg (by omega), if_neg (by omega)]
  simp only
  rw [if_neg (by omega), if_neg (by simpa using hcmp),
    if_neg (by simpa using (propertiesCmp_zero n1 n2).mpr hr), hm]

theorem mergeNetworks_some (ctz0 : Nat) (h0 : 8 ≤ ctz0) {n1 n2 : Network}
    (hb1 : Block n1) (hb2 : Block n2) {r : Res (Option Network)} (hr : mergeNetworks ctz0 n1 n2 = r)
    (hne : r ≠ .ok none) : ∃ w, Halves w n1 n2 ∧ SameRaw n1 n2 := by
  unfold mergeNetworks at hr
  by_cases c1 : n1.family ≠ n2.family
  · rw [if_pos c1] at hr; exact absurd hr.symm hne
  rw [if_neg c1] at hr
  by_cases c2 : n1.pfx ≠ n2.pfx
  · rw [if_pos c2] at hr; exact absurd hr.symm hne
  rw [if_neg c2] at hr
  by_cases c3 : n1.pfx = 0 ∨ n2.pfx = 0
  · rw [if_pos c3] at hr; exact absurd hr.symm hne
  rw [if_neg c3] at hr
  simp only at hr
  by_cases c4 : bitLength ctz0 n1.first ≥ netPrefix n1
  · rw [if_pos c4] at hr; exact absurd hr.symm hne
  rw [if_neg c4] at hr
  by_cases c5 : addrCmp (addrInc n1.last) n2.first ≠ 0
  · rw [if_pos c5] at hr; exact absurd hr.symm hne
  rw [if_neg c5] at hr
  by_cases c6 : propertiesCmp n1 n2 ≠ 0
  · rw [if_pos c6] at hr; exact absurd hr.symm hne
  clear hr
  have c1 : n1.family = n2.family := by simpa using c1
  have c2 : n1.pfx = n2.pfx := by simpa using c2
  have c5 : addrInc n1.last = n2.first := by simpa [addrCmp_zero] using c5
  have c6 : SameRaw n1 n2 := (propertiesCmp_zero n1 n2).mp (by simpa using c6)
  obtain ⟨c4a, c4b⟩ := (bitLength_lt_iff ctz0 h0 hb1).mp (by omega)
  have h1 := path_concat_of_bit hb1 (by omega) false c4b
  generalize (path n1).dropLast = w at h1
  have l1 := congrArg List.length h1
  rw [length_path hb1.le] at l1
  simp at l1
  have hle1 := hb1.le
  obtain ⟨m, hm, hbm, hpm, hmp⟩ := parent_block hb1 h1 c4a
  have h1m : path n1 = path m ++ [false] := by rw [h1, hpm]
  have hv := congrArg value c5
  have hnm : value n1.last ≠ famMax n1.last := by
    intro e
    have hz := half_last_max hbm hb1 h1m (by omega) e
    have hz' := congrArg List.length hz
    rw [length_path hbm.le] at hz'
    simp at hz'
    rw [value_addrInc, if_pos e] at hv
    have ha := hb2.aligned
    rw [← c2, ← hv, hb1.last_eq] at ha
    have hp80 : n1.pfx = 80 := by omega
    rw [hp80] at ha
    have ha1 := hb1.aligned
    rw [hp80] at ha1
    omega
  have hinc := value_addrInc_of_ne hnm
  rw [value_half hbm hb1 h1m (by omega), hv] at hinc
  have h2 : path n2 = w ++ [true] := by
    unfold path
    rw [← hpm]
    exact take_bits_of_value (by simp [length_path hbm.le]; omega) hb2.le (by rw [hinc]; congr 2; omega)
  refine ⟨w, ⟨h1, h2, ?_⟩, c6⟩
  rintro (hu | hu)
  · apply hnm
    have hl : n1.pfx = 80 := by rw [l1, hu]; rfl
    have hval : value n1.last = 0xffffffffffff := by
      rw [value_last_path hb1, h1, hu, hl]
      decide +kernel
    have hv4 : IsV4 n1.last := by unfold IsV4; rw [hval]
    unfold famMax
    rw [hval, if_pos hv4]
  · have f1 := block_v4_iff hb1
    have f2 := block_v4_iff hb2
    rw [h1, hu] at f1
    rw [h2, hu, ← v4path_concat] at f2
    have e2 : n2.family = .inet := f2.mpr (List.prefix_refl _)
    rw [c1] at f1
    have := f1.mp e2
    revert this
    decide

/-- Complete description of `loc_network_merge`. -/
theorem mergeNetworks_spec (ctz0 : Nat) (h0 : 8 ≤ ctz0) {n1 n2 : Network} (hb1 : Block n1) (hb2 : Block n2) :
    (∃ w m, Halves w n1 n2 ∧ SameRaw n1 n2 ∧ mergeNetworks ctz0 n1 n2 = .ok (some m) ∧ Block m ∧
      path m = w ∧ SameRaw m n1) ∨
    ((¬ ∃ w, Halves w n1 n2 ∧ SameRaw n1 n2) ∧ mergeNetworks ctz0 n1 n2 = .ok none) := by
  by_cases h : ∃ w, Halves w n1 n2 ∧ SameRaw n1 n2
  · obtain ⟨w, hw, hr⟩ := h
    obtain ⟨m, h1, h2, h3, h4⟩ := mergeNetworks_halves ctz0 h0 hb1 hb2 hw hr
    exact .inl ⟨w, m, hw, hr, h1, h2, h3, h4⟩
  · right
    refine ⟨h, ?_⟩
    by_cases hr : mergeNetworks ctz0 n1 n2 = .ok none
    · exact hr
    · exact absurd (mergeNetworks_some ctz0 h0 hb1 hb2 rfl hr) h

end Loc
