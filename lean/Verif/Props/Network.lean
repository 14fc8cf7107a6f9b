import Verif.Lemmas.Odd
/-
C01-C07, C12, C35: network objects.
-/
namespace Loc.Props
open Spec

/-! ### sample objects used in the examples -/

/-- the IPv4 address a.b.c.d -/
def ip4 (a b c d : Byte) : Addr := #v[0,0,0,0, 0,0,0,0, 0,0,0xff,0xff, a,b,c,d]

/-- an IPv4 network, built by hand (see `mk4_new`) -/
def mk4 (first last : Addr) (p : Nat) : Network :=
  { family := .inet, first := first, last := last, pfx := 96 + p,
    cc0 := 0, cc1 := 0, asn := 0, flags := 0 }

/-- 10.0.0.0/8 with country DE and AS 65000 -/
def net10_8 : Network :=
  { mk4 (ip4 10 0 0 0) (ip4 10 255 255 255) 8 with cc0 := 68, cc1 := 69, asn := 65000 }
/-- 10.1.0.0/16 -/
def net10_1_16 : Network := mk4 (ip4 10 1 0 0) (ip4 10 1 255 255) 16
/-- 10.1.2.0/24 -/
def net10_1_2_24 : Network := mk4 (ip4 10 1 2 0) (ip4 10 1 2 255) 24
/-- ::/79 -/
def netZ79 : Network :=
  { family := .inet6, first := addrReset .inet6
    last := #v[0,0,0,0, 0,0,0,0, 0,1,0xff,0xff, 0xff,0xff,0xff,0xff]
    pfx := 79, cc0 := 0, cc1 := 0, asn := 0, flags := 0 }
/-- ::fffe:0:0/95 -/
def netFFFE95 : Network :=
  { family := .inet6, first := #v[0,0,0,0, 0,0,0,0, 0,0,0xff,0xfe, 0,0,0,0]
    last := #v[0,0,0,0, 0,0,0,0, 0,0,0xff,0xff, 0xff,0xff,0xff,0xff]
    pfx := 95, cc0 := 0, cc1 := 0, asn := 0, flags := 0 }
/-- ::1:0:0:0/96, a subnet of ::/79 -/
def netZ96 : Network :=
  { family := .inet6, first := #v[0,0,0,0, 0,0,0,0, 0,1,0,0, 0,0,0,0]
    last := #v[0,0,0,0, 0,0,0,0, 0,1,0,0, 0xff,0xff,0xff,0xff]
    pfx := 96, cc0 := 0, cc1 := 0, asn := 0, flags := 0 }

/-- the hand-made samples are what the library creates -/
example : newNetwork (ip4 10 1 2 3) 16 = .ok net10_1_16 ∧ newNetwork (ip4 10 1 2 3) 24 = .ok net10_1_2_24 ∧
    newNetwork netZ79.last 79 = .ok netZ79 ∧ newNetwork netFFFE95.first 95 = .ok netFFFE95 ∧
    newNetwork netZ96.last 96 = .ok netZ96 ∧ Block net10_8 ∧ CountryOk net10_8 := by decide +kernel

/-! ### what every network obtained through the API satisfies -/

/-- Everything the API hands out is a CIDR block with an empty or valid country code: the hypotheses
    `Block` and `CountryOk` of the theorems below hold for every network a program can hold. -/
theorem built_ok (ctz0 : Nat) (h0 : 8 ≤ ctz0) {n : Network} (h : Built ctz0 n) : Block n ∧ CountryOk n := by
  induction h with
  | @new a p n h =>
    by_cases hp : famStart a + p ≤ 128
    · obtain ⟨m, h1, h2, -, -, -, h3, -⟩ := newNetwork_ok a p hp
      rw [h1] at h
      cases h
      exact ⟨h2, .inl h3⟩
    · rw [newNetwork_err a p hp] at h; cases h
  | country _ h ih =>
    rcases setCountryCode_cases h with ⟨-, rfl⟩ | ⟨c0, c1, -, hv, rfl⟩
    · exact ⟨ih.1.with_props _ _ _ _, .inl rfl⟩
    · exact ⟨ih.1.with_props _ _ _ _, .inr hv⟩
  | asn x _ ih => exact ⟨ih.1.with_props _ _ _ _, ih.2⟩
  | flag f _ ih => exact ⟨ih.1.with_props _ _ _ _, ih.2⟩
  | @lower n s1 s2 _ h ih =>
    have hlt : n.pfx < 128 := by
      have := ih.1.le
      by_cases e : n.pfx = 128
      · rw [subnets_host n ih.1 e] at h; cases h
      · omega
    have hu : ¬ unsplittable (path n) := by
      intro hu; rw [subnets_unsplittable n ih.1 hu] at h; cases h
    obtain ⟨t1, t2, h1, h2, h3⟩ := subnets_ok n ih.1 ih.2 hlt hu
    rw [h1] at h; cases h
    exact ⟨h2.block, h2.countryOk ih.2⟩
  | @upper n s1 s2 _ h ih =>
    have hlt : n.pfx < 128 := by
      have := ih.1.le
      by_cases e : n.pfx = 128
      · rw [subnets_host n ih.1 e] at h; cases h
      · omega
    have hu : ¬ unsplittable (path n) := by
      intro hu; rw [subnets_unsplittable n ih.1 hu] at h; cases h
    obtain ⟨t1, t2, h1, h2, h3⟩ := subnets_ok n ih.1 ih.2 hlt hu
    rw [h1] at h; cases h
    exact ⟨h3.block, h3.countryOk ih.2⟩
  | @merged m n k _ _ h ihm ihn =>
    rcases mergeNetworks_spec ctz0 h0 ihm.1 ihn.1 with ⟨w, k', -, -, h1, h2, -, h4⟩ | ⟨-, h1⟩
    · rw [h1] at h; cases h
      refine ⟨h2, ?_⟩
      have := ihm.2
      unfold CountryOk at *
      rw [h4.1, h4.2.1]
      exact this
    · rw [h1] at h; cases h

/-! ### C01 -/

/-- C01: `loc_network_cmp` is negative, zero, positive exactly as (first address, prefix) is smaller,
    equal, larger. -/
theorem cmp_order (m n : Network) :
    (netCmp m n < 0 ↔ Before m n) ∧ (netCmp m n = 0 ↔ SameBlock m n) ∧ (netCmp m n > 0 ↔ Before n m) :=
  ⟨netCmp_neg, netCmp_zero, netCmp_pos⟩

/-- C01: hence a strict total order on blocks. -/
theorem cmp_total (k m n : Network) :
    ¬ netCmp m m < 0 ∧ (netCmp k m < 0 → netCmp m n < 0 → netCmp k n < 0) ∧
    (netCmp m n < 0 ∨ SameBlock m n ∨ netCmp n m < 0) := by
  simp only [(cmp_order _ _).1]
  refine ⟨before_irrefl m, before_trans, ?_⟩
  unfold Before SameBlock
  omega

/-- C01: zero means that all addresses, the prefix and the family agree. -/
theorem cmp_zero_same {m n : Network} (hm : Block m) (hn : Block n) (h : netCmp m n = 0) :
    m.first = n.first ∧ m.last = n.last ∧ m.pfx = n.pfx ∧ m.family = n.family :=
  sameBlock_fields hm hn ((cmp_order m n).2.1.mp h)

example : netCmp net10_8 net10_1_16 < 0 ∧ netCmp net10_1_2_24 net10_1_16 > 0 ∧
    netCmp net10_8 (mk4 (ip4 10 0 0 0) (ip4 10 255 255 255) 8) = 0 := by decide

/-! ### C02 -/

/-- C02: which prefixes are accepted. -/
theorem new_accepts (a : Addr) (p : Nat) : (∃ n, newNetwork a p = .ok n) ↔ p ≤ width a := by
  have hw : p ≤ width a ↔ famStart a + p ≤ 128 := by
    have hv := isV4Mapped_iff a
    unfold width famStart
    cases h : isV4Mapped a
    · rw [h] at hv; rw [if_neg (fun hh => by simpa using hv.mpr hh)]; simp
    · rw [if_pos (hv.mp h)]; simp; omega
  rw [hw]
  constructor
  · intro ⟨n, hn⟩
    by_cases h : famStart a + p ≤ 128
    · exact h
    · rw [newNetwork_err a p h] at hn; cases hn
  · intro h
    obtain ⟨n, hn, -⟩ := newNetwork_ok a p h
    exact ⟨n, hn⟩

/-- C02: what a new network looks like.  The raw prefix counts the 96 leading bits of IPv4-mapped
    addresses; first and last address are the smallest and the largest address agreeing with `a` on
    that many bits. -/
theorem new_canonical (a : Addr) (p : Nat) (n : Network) (h : newNetwork a p = .ok n) :
    Block n ∧ (n.family = .inet ↔ IsV4 a) ∧ netPrefix n = p ∧ n.pfx = familyStart a + p ∧
    AgreeOn n.pfx a n.first ∧ AgreeOn n.pfx a n.last ∧
    (∀ b, AgreeOn n.pfx a b → value n.first ≤ value b ∧ value b ≤ value n.last) ∧
    n.cc0 = 0 ∧ n.asn = 0 ∧ n.flags = 0 := by
  have hp : famStart a + p ≤ 128 := by
    by_cases hp : famStart a + p ≤ 128
    · exact hp
    · rw [newNetwork_err a p hp] at h; cases h
  obtain ⟨m, h1, hb, hpfx, hpath, hfam, hc0, -, hasn, hfl⟩ := newNetwork_ok a p hp
  have hmn : m = n := by rw [h1] at h; cases h; rfl
  subst hmn
  have hfs : famStart a = familyStart a := by
    have hv := isV4Mapped_iff a
    unfold famStart familyStart
    cases h : isV4Mapped a
    · have hn : ¬ IsV4 a := fun hh => by simpa [h] using hv.mpr hh
      rw [if_neg hn]; rfl
    · rw [if_pos (hv.mp h)]; rfl
  have hagree : ∀ b, AgreeOn m.pfx a b ↔ Contains m b := by
    intro b
    rw [contains_iff_path hb, hpath, ← hpfx, isPrefix_bits_iff _ _ (by simp)]
    unfold AgreeOn
    rw [natOfBits_take _ _ hb.le]
    simp only [List.length_take, length_bits, Nat.min_eq_left hb.le]
  refine ⟨hb, ?_, ?_, by rw [← hfs]; exact hpfx, ?_, ?_, ?_, hc0, hasn, hfl⟩
  · rw [hfam]
    unfold addrFamily
    rw [← isV4Mapped_iff]
    cases isV4Mapped a <;> simp
  · have h1 := famStart_first hb
    have h2 : famStart m.first = famStart a := by
      have := family_first hb
      rw [hfam] at this
      unfold addrFamily at this
      unfold famStart
      cases h3 : isV4Mapped a <;> cases h4 : isV4Mapped m.first <;> simp_all
    omega
  · exact (hagree _).mpr (first_contains hb)
  · exact (hagree _).mpr (last_contains hb)
  · intro b hab; exact (hagree b).mp hab

example : ∃ n, newNetwork (ip4 10 1 2 3) 16 = .ok n ∧ n.first = ip4 10 1 0 0 ∧
    n.last = ip4 10 1 255 255 ∧ netPrefix n = 16 := ⟨_, rfl, by decide⟩
example : ¬ ∃ n, newNetwork (ip4 10 1 2 3) 33 = .ok n := by
  rw [new_accepts]; decide

/-! ### C03 -/

/-- C03: `loc_network_matches_address` is membership in the address range. -/
theorem matches_address_iff (n : Network) (a : Addr) : matchesAddress n a = true ↔ Contains n a :=
  matchesAddress_iff n a

/-- C03: and that is agreement on the prefix bits. -/
theorem matches_address_prefix {n : Network} (h : Block n) (a : Addr) :
    matchesAddress n a = true ↔ AgreeOn n.pfx n.first a := by
  rw [matchesAddress_iff, contains_iff_path h, isPrefix_bits_iff _ _ (by rw [length_path h.le]; exact h.le),
    length_path h.le]
  unfold AgreeOn path
  rw [natOfBits_take _ _ h.le]

example : Block net10_1_16 ∧ matchesAddress net10_1_16 (ip4 10 1 7 7) = true ∧
    matchesAddress net10_1_16 (ip4 10 2 7 7) = false := by decide

/-! ### C04 -/

/-- C04: `loc_network_is_subnet(a, b)` is set inclusion. -/
theorem is_subnet_iff {a b : Network} (ha : Block a) (hb : Block b) :
    isSubnet a b = true ↔ Inside b a := by
  rw [isSubnet_iff_path ha hb, inside_iff_path hb ha]

/-- C04: `loc_network_overlaps` is non-empty intersection. -/
theorem overlaps_iff {a b : Network} (ha : Block a) (hb : Block b) :
    overlaps a b = true ↔ ∃ x, Contains a x ∧ Contains b x := by
  have := overlaps_false_iff ha hb
  cases h : overlaps a b
  · rw [h] at this
    simp only [Bool.false_eq_true, false_iff, not_exists]
    exact this.mp rfl
  · simp only [true_iff]
    by_cases hx : ∃ x, Contains a x ∧ Contains b x
    · exact hx
    · have := this.mpr (fun x hh => hx ⟨x, hh⟩)
      rw [h] at this; cases this

/-- C04: overlapping networks are nested, overlap is symmetric. -/
theorem overlaps_nested {a b : Network} (ha : Block a) (hb : Block b) :
    overlaps a b = overlaps b a ∧ (overlaps a b = true ↔ isSubnet a b = true ∨ isSubnet b a = true) := by
  have h1 : overlaps a b = true ↔ overlaps b a = true := by
    rw [overlaps_iff ha hb, overlaps_iff hb ha]
    constructor <;> exact fun ⟨x, h, h'⟩ => ⟨x, h', h⟩
  refine ⟨Bool.eq_iff_iff.mpr h1, ?_⟩
  rw [overlaps_iff_path ha hb, isSubnet_iff_path ha hb, isSubnet_iff_path hb ha]

/-- C04: the subnet relation is a partial order on blocks. -/
theorem is_subnet_order {a b c : Network} (ha : Block a) (hb : Block b) (hc : Block c) :
    isSubnet a a = true ∧ (isSubnet a b = true → isSubnet b c = true → isSubnet a c = true) ∧
    (isSubnet a b = true → isSubnet b a = true → SameBlock a b) := by
  rw [is_subnet_iff ha ha, is_subnet_iff ha hb, is_subnet_iff hb hc, is_subnet_iff ha hc, is_subnet_iff hb ha]
  refine ⟨fun _ h => h, fun h1 h2 x hx => h1 x (h2 x hx), fun h1 h2 => ?_⟩
  rw [inside_iff_path hb ha] at h1
  rw [inside_iff_path ha hb] at h2
  rw [sameBlock_iff_path ha hb]
  exact h1.eq_of_length (by have := h1.length_le; have := h2.length_le; omega)

example : Block net10_8 ∧ Block net10_1_16 ∧ isSubnet net10_8 net10_1_16 = true ∧
    isSubnet net10_1_16 net10_8 = false ∧ overlaps net10_1_16 net10_8 = true := by decide

/-! ### C05 -/

/-- C05, full statement: `loc_network_subnets` halves every network that is not a host. -/
def SplitExact (n : Network) : Prop :=
  ∃ s1 s2, subnets n = .ok (s1, s2) ∧ Block s1 ∧ Block s2 ∧
    s1.pfx = n.pfx + 1 ∧ s2.pfx = n.pfx + 1 ∧ s1.family = n.family ∧ s2.family = n.family ∧
    (∀ a, Contains n a ↔ Contains s1 a ∨ Contains s2 a) ∧ (∀ a, ¬ (Contains s1 a ∧ Contains s2 a)) ∧
    Before s1 s2 ∧ props s1 = props n ∧ props s2 = props n

/-- C05, proved part: true for every network other than a host, ::/79 and ::fffe:0:0/95. -/
theorem split_exact_partial {n : Network} (hb : Block n) (hc : CountryOk n) (hh : ¬ IsHost n)
    (ho : ¬ OddBlock n) : SplitExact n := by
  have hle := hb.le
  have hlt : n.pfx < 128 := by unfold IsHost at hh; omega
  rw [oddBlock_iff hb] at ho
  obtain ⟨s1, s2, h1, h2, h3⟩ := subnets_ok n hb hc hlt ho
  have l1 := congrArg List.length h2.path_eq
  have l2 := congrArg List.length h3.path_eq
  rw [length_path h2.block.le, List.length_append, length_path hb.le] at l1
  rw [length_path h3.block.le, List.length_append, length_path hb.le] at l2
  have hfam : s1.family = s2.family := halves_family h2.block h3.block ⟨h2.path_eq, h3.path_eq, ho⟩
  have hfn : s2.family = n.family := by
    have f1 := block_v4_iff h2.block
    have f := block_v4_iff hb
    rw [h2.path_eq, v4path_concat_iff] at f1
    simp only [Bool.false_eq_true, and_false, or_false] at f1
    rw [← f, hfam] at f1
    cases e1 : s2.family <;> cases e2 : n.family <;> simp_all
  refine ⟨s1, s2, h1, h2.block, h3.block, l1, l2, hfam.trans hfn, hfn, ?_, ?_, ?_, h2.props, h3.props⟩
  · intro a
    rw [contains_iff_path hb, contains_iff_path h2.block, contains_iff_path h3.block, h2.path_eq, h3.path_eq]
    constructor
    · intro h
      have hne : path n ≠ bits a := by
        intro e; have := congrArg List.length e; rw [length_path hle] at this; simp at this; omega
      obtain ⟨b, hb⟩ := strict_concat h hne
      cases b
      · exact .inl hb
      · exact .inr hb
    · rintro (h | h)
      · exact (List.prefix_append _ _).trans h
      · exact (List.prefix_append _ _).trans h
  · intro a ⟨g1, g2⟩
    rw [contains_iff_path h2.block, h2.path_eq] at g1
    rw [contains_iff_path h3.block, h3.path_eq] at g2
    have := prefix_concat_inj g1 g2
    cases this
  · have e1 := h2.path_eq
    have e2 := h3.path_eq
    exact LeftOf.before h2.block (before_of_diverge h2.block h3.block (w := path n)
      (by rw [e1]; exact List.prefix_refl _) (by rw [e2]; exact List.prefix_refl _))

/-- C05: hosts are refused. -/
theorem split_host {n : Network} (hb : Block n) (hh : IsHost n) : subnets n = .error (.err EINVAL) :=
  subnets_host n hb hh

/-- C05 is violated: the code fails on exactly two networks that are not hosts, ::/79 (its lower half
    ends with 255.255.255.255, which the increment does not move on from) and ::fffe:0:0/95 (its upper
    half is the IPv4 range). -/
theorem split_odd {n : Network} (hb : Block n) (ho : OddBlock n) : subnets n = .error (.err EINVAL) :=
  subnets_unsplittable n hb ((oddBlock_iff hb).mp ho)

theorem split_violated : Block netZ79 ∧ CountryOk netZ79 ∧ ¬ IsHost netZ79 ∧ ¬ SplitExact netZ79 ∧
    Block netFFFE95 ∧ CountryOk netFFFE95 ∧ ¬ IsHost netFFFE95 ∧ ¬ SplitExact netFFFE95 := by
  have b1 : Block netZ79 := by decide
  have b2 : Block netFFFE95 := by decide
  refine ⟨b1, by decide, by unfold IsHost; decide, ?_, b2, by decide, by unfold IsHost; decide, ?_⟩
  · rintro ⟨s1, s2, h, -⟩
    rw [split_odd b1 (by decide)] at h; cases h
  · rintro ⟨s1, s2, h, -⟩
    rw [split_odd b2 (by decide)] at h; cases h

example : Block net10_8 ∧ CountryOk net10_8 ∧ ¬ IsHost net10_8 ∧ ¬ OddBlock net10_8 ∧
    ∃ s1 s2, subnets net10_8 = .ok (s1, s2) ∧ s1.last = ip4 10 127 255 255 ∧ s2.first = ip4 10 128 0 0 ∧
      countryCode s2 = [68, 69] :=
  ⟨by decide, by decide, by unfold IsHost; decide, by decide, _, _, rfl, by decide⟩

/-! ### C06 -/

/-- C06, full statement: `l` is the exact set difference of `self` and `other`. -/
def ExactDifference (self other : Network) (l : NetList) : Prop :=
  Ascending l ∧ PairwiseDisjoint l ∧ (∀ x ∈ l, Block x ∧ props x = props self) ∧
  ∀ a, (∃ x ∈ l, Contains x a) ↔ Contains self a ∧ ¬ Contains other a

/-- C06, proved part: whenever no odd block (::/79, ::fffe:0:0/95) has to be cut. -/
theorem exclude_exact_partial {self other : Network} (hs : Block self) (hc : CountryOk self) (ho : Block other)
    (hin : StrictlyInside other self) (hodd : ¬ CutsOddBlock self other) :
    ∃ l, exclude self other = .ok l ∧ ExactDifference self other l := by
  have hp := (inside_iff_path ho hs).mp hin.1
  have hne : path self ≠ path other := fun e => hin.2 ((sameBlock_iff_path ho hs).mpr e.symm)
  obtain ⟨l, h1, h2⟩ := excludeToList_spec hs hc ho [] hp hne ((splittable_iff hs ho hp).mpr hodd)
    List.Pairwise.nil (by simp)
  have hpc : ∀ x ∈ l, ∃ w', Sib (path self) (path other) w' ∧ Piece self w' x := by
    intro x hx
    rcases h2.new x hx with h | h
    · cases h
    · exact h
  have hole := ho.le
  refine ⟨l, ?_, h2.asc, ?_, ?_, ?_⟩
  · unfold exclude; rw [h1]
  · unfold PairwiseDisjoint
    refine (List.Pairwise.and_mem.mp h2.asc).imp ?_
    rintro x y ⟨hx, hy, hb⟩ a ⟨g1, g2⟩
    obtain ⟨w1, s1, p1⟩ := hpc x hx
    obtain ⟨w2, s2, p2⟩ := hpc y hy
    rw [contains_iff_path p1.block, p1.path_eq] at g1
    rw [contains_iff_path p2.block, p2.path_eq] at g2
    have := sib_disjoint s1 s2 g1 g2
    exact before_not_same hb ((sameBlock_iff_path p1.block p2.block).mpr (by rw [p1.path_eq, p2.path_eq, this]))
  · intro x hx
    obtain ⟨w, -, p⟩ := hpc x hx
    exact ⟨p.block, p.props⟩
  · intro a
    rw [contains_iff_path hs, contains_iff_path ho]
    constructor
    · rintro ⟨x, hx, hxa⟩
      obtain ⟨w, s, p⟩ := hpc x hx
      rw [contains_iff_path p.block, p.path_eq] at hxa
      exact sib_sound s hxa
    · rintro ⟨g1, g2⟩
      rcases sib_cover hp g1 (by simp [length_path hole, hole]) with h | ⟨w, hw, hwa⟩
      · exact absurd h g2
      · obtain ⟨y, hy, hyp⟩ := h2.all w hw
        refine ⟨y, hy, ?_⟩
        obtain ⟨w', -, p⟩ := hpc y hy
        rw [contains_iff_path p.block, hyp]
        exact hwa

/-- C06 fails exactly when an odd block has to be cut: then the code reports an error (NULL). -/
theorem exclude_odd {self other : Network} (hs : Block self) (hc : CountryOk self) (ho : Block other)
    (hin : StrictlyInside other self) (hodd : CutsOddBlock self other) :
    exclude self other = .error (.err EINVAL) := by
  have hp := (inside_iff_path ho hs).mp hin.1
  have hne : path self ≠ path other := fun e => hin.2 ((sameBlock_iff_path ho hs).mpr e.symm)
  have hsp : ¬ Splittable (path self) (path other) := by
    rw [splittable_iff hs ho hp]; exact fun h => h hodd
  have hex : ∃ w, path self <+: w ∧ w <+: path other ∧ w ≠ path other ∧ unsplittable w := by
    unfold Splittable at hsp
    by_cases h : ∃ w, path self <+: w ∧ w <+: path other ∧ w ≠ path other ∧ unsplittable w
    · exact h
    · exact absurd (fun w h1 h2 h3 h4 => h ⟨w, h1, h2, h3, h4⟩) hsp
  have h1 := excludeRec_stuck other ho excludeFuel self [] hs hc hex (excludeFuel_ok ho) List.Pairwise.nil (by simp)
  have h2 := excludeToList_strict hs ho [] hp hne
  unfold exclude
  rw [h2]
  generalize excludeRec self other [] excludeFuel = r at h1
  obtain ⟨l, e⟩ := r
  simp only at h1
  rw [h1]

/-- C06 is violated: ::1:0:0:0/96 lies strictly inside ::/79 but cannot be excluded from it. -/
theorem exclude_violated : Block netZ79 ∧ Block netZ96 ∧ StrictlyInside netZ96 netZ79 ∧
    exclude netZ79 netZ96 = .error (.err EINVAL) := by
  have b1 : Block netZ79 := by decide
  have b2 : Block netZ96 := by decide
  have hin : StrictlyInside netZ96 netZ79 :=
    ⟨(is_subnet_iff b1 b2).mp (by decide), by decide⟩
  exact ⟨b1, b2, hin, exclude_odd b1 (by decide) b2 hin (by decide)⟩

/-- C06: a network that is not strictly inside is silently ignored, the result is empty. -/
theorem exclude_not_inside {self other : Network} (hs : Block self) (ho : Block other)
    (hin : ¬ StrictlyInside other self) : exclude self other = .ok [] := by
  have : ¬ (path self <+: path other ∧ path self ≠ path other) := by
    rintro ⟨h1, h2⟩
    exact hin ⟨(inside_iff_path ho hs).mpr h1, fun e => h2 ((sameBlock_iff_path ho hs).mp e).symm⟩
  unfold exclude
  rw [excludeToList_none hs ho [] this]

example : Block net10_8 ∧ CountryOk net10_8 ∧ Block net10_1_16 ∧ StrictlyInside net10_1_16 net10_8 ∧
    ¬ CutsOddBlock net10_8 net10_1_16 := by
  have b1 : Block net10_8 := by decide
  have b2 : Block net10_1_16 := by decide
  exact ⟨b1, by decide, b2, ⟨(is_subnet_iff b1 b2).mp (by decide), by decide⟩, by decide⟩

/-! ### C07 -/

/-- C07, full statement: `r` is the exact set difference of `n` and the union of the list. -/
def ExactListDifference (n : Network) (list r : NetList) : Prop :=
  Ascending r ∧ PairwiseDisjoint r ∧ (∀ x ∈ r, Block x ∧ props x = props n) ∧
  ∀ a, (∃ x ∈ r, Contains x a) ↔ Contains n a ∧ ∀ s ∈ list, ¬ Contains s a

/-- C07, proved part: for every ascending list with at least one strict subnet of `n`, provided that no
    odd block has to be cut; `128 * length + 1` iterations always suffice, so the loop terminates. -/
theorem exclude_list_exact_partial {n : Network} (hn : Block n) (hc : CountryOk n) {list : NetList}
    (hasc : Ascending list) (hbl : ∀ s ∈ list, Block s) (hex : ∃ s ∈ list, StrictlyInside s n)
    (hodd : ∀ s ∈ list, StrictlyInside s n → ¬ CutsOddBlock n s)
    (fuel : Nat) (hf : 128 * list.length < fuel) :
    ∃ r, excludeList fuel n list = .ok r ∧ ExactListDifference n list r := by
  have hsp : ∀ s ∈ list, path n <+: path s → Splittable (path n) (path s) := by
    intro s hs hp
    by_cases hsb : path n = path s
    · intro w h1 h2 h3
      rw [← hsb] at h2 h3
      exact absurd (h2.eq_of_length (by have := h1.length_le; have := h2.length_le; omega)) h3
    · exact (splittable_iff hn (hbl s hs) hp).mpr (hodd s hs ⟨(inside_iff_path (hbl s hs) hn).mpr hp,
        fun e => hsb ((sameBlock_iff_path (hbl s hs) hn).mp e).symm⟩)
  obtain ⟨r, h1, h2⟩ := excludeList_spec hn hc hasc hbl hsp (by
    obtain ⟨s, hs, hi⟩ := hex
    exact ⟨s, hs, (inside_iff_path (hbl s hs) hn).mp hi.1,
      fun e => hi.2 ((sameBlock_iff_path (hbl s hs) hn).mpr e.symm)⟩) fuel hf
  refine ⟨r, h1, h2.asc, resultOk_disjoint hbl h2, ?_, ?_⟩
  · intro x hx
    obtain ⟨l, hl, w, hw, p⟩ := h2.pieces x hx
    exact ⟨p.block, p.props⟩
  · intro a
    constructor
    · rintro ⟨x, hx, hxa⟩
      obtain ⟨l, hl, w, hw, p⟩ := h2.pieces x hx
      refine ⟨?_, ?_⟩
      · rw [contains_iff_path p.block, p.path_eq] at hxa
        rw [contains_iff_path hn]
        exact (sib_sound hw hxa).1
      · intro s hs hsa
        have := (overlaps_iff (hbl s hs) p.block).mpr ⟨a, hsa, hxa⟩
        rw [h2.free x hx s hs] at this
        cases this
    · rintro ⟨g1, g2⟩
      exact h2.cover a g1 g2

/-- C07: without a strict subnet on the list the result is empty (also when the list holds `n` itself
    or enclosing networks). -/
theorem exclude_list_no_subnet {n : Network} (hn : Block n) {list : NetList} (hbl : ∀ s ∈ list, Block s)
    (hex : ¬ ∃ s ∈ list, StrictlyInside s n) (fuel : Nat) (hf : 0 < fuel) : excludeList fuel n list = .ok [] := by
  refine excludeList_none hn hbl ?_ fuel hf
  rintro ⟨s, hs, h1, h2⟩
  exact hex ⟨s, hs, (inside_iff_path (hbl s hs) hn).mpr h1,
    fun e => h2 ((sameBlock_iff_path (hbl s hs) hn).mp e).symm⟩

example : Block net10_8 ∧ CountryOk net10_8 ∧ Ascending [net10_1_16, net10_1_2_24] ∧
    (∀ s ∈ [net10_1_16, net10_1_2_24], Block s) ∧ StrictlyInside net10_1_16 net10_8 ∧
    ∀ s ∈ [net10_1_16, net10_1_2_24], ¬ CutsOddBlock net10_8 s := by
  have b1 : Block net10_8 := by decide
  have b2 : Block net10_1_16 := by decide
  refine ⟨b1, by decide, ?_, by decide, ⟨(is_subnet_iff b1 b2).mp (by decide), by decide⟩, by decide⟩
  unfold Ascending Before
  decide

/-- C07 is violated on the odd blocks: excluding ::1:0:0:0/96 from ::/79 fails. -/
theorem exclude_list_violated : StrictlyInside netZ96 netZ79 ∧
    ∀ fuel, excludeList fuel netZ79 [netZ96] = .error (.err EINVAL) := by
  refine ⟨exclude_violated.2.2.1, fun fuel => ?_⟩
  have h : excludeListCollect netZ79 [] [netZ96] = .error (.err EINVAL) := by decide +kernel
  unfold excludeList
  rw [h]

/-! ### C12 -/

/-- `m` is a block with lower half `n1` and upper half `n2`. -/
def HalvesOf (n1 n2 m : Network) : Prop :=
  Block m ∧ n1.pfx = m.pfx + 1 ∧ n2.pfx = m.pfx + 1 ∧ Inside n1 m ∧ Inside n2 m ∧ Before n1 n2

theorem halvesOf_path {n1 n2 m : Network} (h1 : Block n1) (h2 : Block n2) (h : HalvesOf n1 n2 m) :
    path n1 = path m ++ [false] ∧ path n2 = path m ++ [true] := by
  obtain ⟨hm, p1, p2, i1, i2, hb⟩ := h
  rw [inside_iff_path h1 hm] at i1
  rw [inside_iff_path h2 hm] at i2
  have lm := length_path hm.le
  have l1 := length_path h1.le
  have l2 := length_path h2.le
  obtain ⟨b, hb1⟩ := strict_concat i1 (by intro e; have := congrArg List.length e; omega)
  obtain ⟨c, hc1⟩ := strict_concat i2 (by intro e; have := congrArg List.length e; omega)
  have e1 := hb1.eq_of_length (by simp; omega)
  have e2 := hc1.eq_of_length (by simp; omega)
  have hne : path n1 ≠ path n2 := fun e => before_not_same hb ((sameBlock_iff_path h1 h2).mpr e)
  cases b <;> cases c
  · exact absurd (e1.symm.trans e2) hne
  · exact ⟨e1.symm, e2.symm⟩
  · exfalso
    have := before_of_diverge h2 h1 (w := path m) hc1 hb1
    exact before_asymm (LeftOf.before h2 this) hb
  · exact absurd (e1.symm.trans e2) hne

/-- C12: `loc_network_merge` never fails; what it returns is a block of which the arguments are the
    lower and the upper half, so its addresses are exactly those of the two, and all three have the same
    properties.  `ctz0` is the value of `__builtin_ctz(0)`. -/
theorem merge_sound (ctz0 : Nat) (h0 : 8 ≤ ctz0) {n1 n2 : Network} (h1 : Block n1) (h2 : Block n2) :
    ∃ r, mergeNetworks ctz0 n1 n2 = .ok r ∧ ∀ m, r = some m →
      HalvesOf n1 n2 m ∧ (∀ a, Contains m a ↔ Contains n1 a ∨ Contains n2 a) ∧
      props m = props n1 ∧ props m = props n2 := by
  rcases mergeNetworks_spec ctz0 h0 h1 h2 with ⟨w, m, ⟨e1, e2, hu⟩, hraw, hm, hbm, hpm, hrm⟩ | ⟨hno, hm⟩
  · refine ⟨some m, hm, ?_⟩
    rintro m' ⟨⟩
    have l1 := congrArg List.length e1
    have l2 := congrArg List.length e2
    have l3 := congrArg List.length hpm
    rw [length_path h1.le] at l1
    rw [length_path h2.le] at l2
    rw [length_path hbm.le] at l3
    simp at l1 l2
    refine ⟨⟨hbm, by omega, by omega, ?_, ?_, ?_⟩, ?_, hrm.props, hrm.props.trans hraw.props⟩
    · rw [inside_iff_path h1 hbm, hpm, e1]; exact List.prefix_append _ _
    · rw [inside_iff_path h2 hbm, hpm, e2]; exact List.prefix_append _ _
    · exact LeftOf.before h1 (before_of_diverge h1 h2 (w := w) (by rw [e1]; exact List.prefix_refl _)
        (by rw [e2]; exact List.prefix_refl _))
    · intro a
      rw [contains_iff_path hbm, contains_iff_path h1, contains_iff_path h2, e1, e2, hpm]
      constructor
      · intro h
        have hle := h1.le
        obtain ⟨b, hb⟩ := strict_concat h (by
          intro e; have := congrArg List.length e; simp at this; omega)
        cases b
        · exact .inl hb
        · exact .inr hb
      · rintro (h | h)
        · exact (List.prefix_append _ _).trans h
        · exact (List.prefix_append _ _).trans h
  · exact ⟨none, hm, by simp⟩

/-- C12, full statement of the other direction: halves with equal properties are merged. -/
def MergeComplete (ctz0 : Nat) (n1 n2 m : Network) : Prop :=
  HalvesOf n1 n2 m → props n1 = props n2 → ∃ k, mergeNetworks ctz0 n1 n2 = .ok (some k) ∧ SameBlock k m

/-- C12, proved part of that direction: it holds unless the union is one of the two odd blocks, for
    networks whose unused country code bytes are clear (`cc0 = 0 → cc1 = 0`). -/
theorem merge_complete_partial (ctz0 : Nat) (h0 : 8 ≤ ctz0) {n1 n2 m : Network} (h1 : Block n1) (h2 : Block n2)
    (c1 : CountryOk n1) (c2 : CountryOk n2) (z1 : n1.cc0 = 0 → n1.cc1 = 0) (z2 : n2.cc0 = 0 → n2.cc1 = 0)
    (ho : ¬ OddBlock m) : MergeComplete ctz0 n1 n2 m := by
  intro hh hprops
  obtain ⟨g1, g2⟩ := halvesOf_path h1 h2 hh
  have hraw : SameRaw n1 n2 := by
    simp only [props, Prod.mk.injEq] at hprops
    obtain ⟨pc, pa, pf⟩ := hprops
    have key : n1.cc0 = n2.cc0 ∧ n1.cc1 = n2.cc1 := by
      by_cases a : n1.cc0 = 0
      · rw [if_pos a] at pc
        by_cases b : n2.cc0 = 0
        · rw [a, b, z1 a, z2 b]; exact ⟨rfl, rfl⟩
        · rw [if_neg b] at pc; split at pc <;> cases pc
      · rw [if_neg a] at pc
        have v1 : n1.cc1 ≠ 0 := by
          rcases c1 with h | h
          · exact absurd h a
          · exact (validCC_ne_zero h).2
        rw [if_neg v1] at pc
        by_cases b : n2.cc0 = 0
        · rw [if_pos b] at pc; cases pc
        · have v2 : n2.cc1 ≠ 0 := by
            rcases c2 with h | h
            · exact absurd h b
            · exact (validCC_ne_zero h).2
          rw [if_neg b, if_neg v2] at pc
          simp only [List.cons.injEq, and_true] at pc
          exact pc
    exact ⟨key.1, key.2, pa, pf⟩
  obtain ⟨k, e1, e2, e3, -⟩ := mergeNetworks_halves ctz0 h0 h1 h2
    ⟨g1, g2, fun hu => ho ((oddBlock_iff hh.1).mpr hu)⟩ hraw
  exact ⟨k, e1, (sameBlock_iff_path e2 hh.1).mpr e3⟩

/-- 10.0.0.0/16, 10.0.0.0/15 -/
def net10_0_16 : Network := mk4 (ip4 10 0 0 0) (ip4 10 0 255 255) 16
def net10_0_15 : Network := mk4 (ip4 10 0 0 0) (ip4 10 1 255 255) 15

theorem halvesOf_of_tests {n1 n2 m : Network} (hm : Block m) (h1 : Block n1) (h2 : Block n2)
    (p1 : n1.pfx = m.pfx + 1) (p2 : n2.pfx = m.pfx + 1) (i1 : isSubnet m n1 = true) (i2 : isSubnet m n2 = true)
    (hb : netCmp n1 n2 < 0) : HalvesOf n1 n2 m :=
  ⟨hm, p1, p2, (is_subnet_iff hm h1).mp i1, (is_subnet_iff hm h2).mp i2, netCmp_neg.mp hb⟩

/-- the hypotheses are met, e.g. by 10.0.0.0/16 and 10.1.0.0/16, which merge to 10.0.0.0/15 -/
example : HalvesOf net10_0_16 net10_1_16 net10_0_15 ∧ ¬ OddBlock net10_0_15 ∧
    ∃ m, mergeNetworks 32 net10_0_16 net10_1_16 = .ok (some m) ∧
      m.first = ip4 10 0 0 0 ∧ netPrefix m = 15 :=
  ⟨halvesOf_of_tests (by decide) (by decide) (by decide) (by decide) (by decide) (by decide) (by decide)
    (by decide), by decide, _, rfl, by decide⟩

/-- ::/80 and ::1:0:0:0/80 -/
def netZ80 : Network := { netZ79 with
  pfx := 80, last := #v[0,0,0,0, 0,0,0,0, 0,0,0xff,0xff, 0xff,0xff,0xff,0xff] }
def netZ80b : Network := { netZ79 with
  pfx := 80, first := #v[0,0,0,0, 0,0,0,0, 0,1,0,0, 0,0,0,0] }

/-- C12 is violated for the odd blocks: ::/80 and ::1:0:0:0/80 are the halves of ::/79 but are not
    merged. -/
theorem merge_violated_odd : HalvesOf netZ80 netZ80b netZ79 ∧ props netZ80 = props netZ80b ∧
    mergeNetworks 32 netZ80 netZ80b = .ok none :=
  ⟨halvesOf_of_tests (by decide) (by decide) (by decide) (by decide) (by decide) (by decide) (by decide)
    (by decide), by decide, by decide +kernel⟩

/-- C12 is violated after clearing a country code: clearing only resets the first byte, and the second
    byte left behind makes two networks without country compare as different. -/
theorem merge_violated_stale :
    ∃ n n', setCountryCode net10_0_16 (some [68, 69]) = .ok n ∧ setCountryCode n none = .ok n' ∧
      HalvesOf n' net10_1_16 net10_0_15 ∧ props n' = props net10_1_16 ∧ countryCode n' = [] ∧
      mergeNetworks 32 n' net10_1_16 = .ok none :=
  ⟨_, _, rfl, rfl, halvesOf_of_tests (by decide) (by decide) (by decide) (by decide) (by decide) (by decide)
    (by decide) (by decide), by decide, by decide, by decide +kernel⟩

/-! ### C35 -/

/-- C35: setting a country code succeeds exactly for NULL, the empty string and valid codes; the code
    read back is the one set. -/
theorem set_country_code_exact (n : Network) (cc : Option CStr) :
    match cc with
    | none => ∃ n', setCountryCode n cc = .ok n' ∧ countryCode n' = []
    | some s =>
      if s = [] ∨ ValidCC s then ∃ n', setCountryCode n cc = .ok n' ∧ countryCode n' = s
      else setCountryCode n cc = .error (.err EINVAL) := by
  match cc with
  | none => exact ⟨_, rfl, rfl⟩
  | some [] =>
    simp only [true_or, if_true]
    exact ⟨_, rfl, rfl⟩
  | some (x :: xs) =>
    have e : setCountryCode n (some (x :: xs)) = if !ccIsValid (some (x :: xs)) then .error (.err EINVAL)
      else match (x :: xs) with
      | [c0, c1] => .ok { n with cc0 := c0, cc1 := c1 }
      | _ => .error (.err EINVAL) := rfl
    simp only
    by_cases hv : ccIsValid (some (x :: xs)) = true
    · have hvc := (ccIsValid_iff (x :: xs)).mp hv
      rw [if_pos (.inr hvc)]
      rw [if_neg (by simp [hv])] at e
      obtain ⟨c0, c1, hc, hr⟩ := id hvc
      rw [hc] at e
      rw [hc] at hvc
      rw [hc]
      refine ⟨_, e, ?_⟩
      have := validCC_ne_zero hvc
      simp only [countryCode, ccString]
      rw [if_neg this.1, if_neg this.2]
    · have hvc : ¬ ValidCC (x :: xs) := fun h => hv ((ccIsValid_iff _).mpr h)
      rw [if_neg (by rintro (h | h); cases h; exact hvc h)]
      rw [if_pos (by simpa using hv)] at e
      exact e

/-- C35: the country code of every network obtained through the API is empty or valid. -/
theorem country_code_always_valid (ctz0 : Nat) (h0 : 8 ≤ ctz0) {n : Network} (h : Built ctz0 n) :
    countryCode n = [] ∨ ValidCC (countryCode n) := by
  rcases (built_ok ctz0 h0 h).2 with h | h
  · left; simp [countryCode, ccString, h]
  · right
    have := validCC_ne_zero h
    simp only [countryCode, ccString]
    rw [if_neg this.1, if_neg this.2]
    exact h

/-- The special codes A1, A2, A3, XD and their flags, as documented. -/
def specialCode : List (CStr × BitVec 32) :=
  [([65, 49], 1), ([65, 50], 2), ([65, 51], 4), ([88, 68], 8)]

/-- C35: matching against a special code tests the flag. -/
theorem match_special (n : Network) (c : CStr) (f : BitVec 32) (h : (c, f) ∈ specialCode) :
    matchesCountryCode n (some c) ≠ 0 ↔ n.flags &&& f ≠ 0 := by
  simp only [specialCode, List.mem_cons, List.not_mem_nil, or_false, Prod.mk.injEq] at h
  have key : ∀ c f, specialCodeToFlag (some c) = f → f ≠ 0 →
      (matchesCountryCode n (some c) ≠ 0 ↔ n.flags &&& f ≠ 0) := by
    intro c f h1 h2
    unfold matchesCountryCode
    simp only [h1]
    rw [if_pos h2]
    unfold hasFlag
    rw [not_iff_not]
    constructor
    · intro h
      apply BitVec.eq_of_toInt_eq
      rw [h]; rfl
    · intro h; rw [h]; rfl
  rcases h with ⟨rfl, rfl⟩ | ⟨rfl, rfl⟩ | ⟨rfl, rfl⟩ | ⟨rfl, rfl⟩ <;>
    exact key _ _ (by decide) (by decide)

/-- C35: matching against a valid code is equality. -/
theorem match_valid (n : Network) (c : CStr) (h : ValidCC c) :
    matchesCountryCode n (some c) ≠ 0 ↔ countryCode n = c := by
  have hs := special_not_valid c h
  have hv := (ccIsValid_iff c).mpr h
  obtain ⟨c0, c1, rfl, -⟩ := id h
  obtain ⟨z0, z1⟩ := validCC_ne_zero h
  have e : matchesCountryCode n (some [c0, c1]) = if n.cc0 == c0 && n.cc1 == c1 then 1 else 0 := by
    unfold matchesCountryCode
    simp only [hs, hv]
    rfl
  rw [e]
  unfold countryCode ccString
  constructor
  · intro hne
    by_cases hc : (n.cc0 == c0 && n.cc1 == c1) = true
    · simp at hc
      rw [hc.1, hc.2, if_neg z0, if_neg z1]
    · rw [if_neg hc] at hne; exact absurd rfl hne
  · intro heq
    by_cases h0 : n.cc0 = 0
    · rw [if_pos h0] at heq; cases heq
    · rw [if_neg h0] at heq
      by_cases h1 : n.cc1 = 0
      · rw [if_pos h1] at heq; cases heq
      · rw [if_neg h1] at heq
        cases heq
        simp

/-- C35, remark: matching against a string that is no country code at all (but not empty and not a
    special code) returns a negative error number, which callers treat as "matches"; NULL and "" match
    every network with any flag set.  A caller has to validate the code first. -/
theorem match_invalid_is_truthy : matchesCountryCode net10_8 (some [120, 120]) = -22 ∧
    matchesCountryCode (setFlag net10_8 4) none = 4 ∧ matchesCountryCode net10_8 none = 0 := by decide

example : ValidCC [68, 69] ∧ matchesCountryCode net10_8 (some [68, 69]) ≠ 0 ∧
    matchesCountryCode net10_8 (some [70, 82]) = 0 ∧
    matchesCountryCode (setFlag net10_8 4) (some [65, 51]) ≠ 0 := by decide

end Loc.Props
