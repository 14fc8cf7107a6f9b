import Verif.Lemmas.Lookup
import Verif.Lemmas.Added
import Verif.Props.File
/-
C14, C15, C20: looking up addresses in a written database.
-/
namespace Loc.Props
open Loc Loc.Spec

/-- `k` is the network at the last node on the way down along the bits of `a`: it contains `a`, and no stored network
    shares one bit more with `a` than `k` has. -/
def LastOnPath (S : Network → Prop) (a : Addr) (k : Network) : Prop :=
  S k ∧ Contains k a ∧ ∀ m, S m → k.pfx < m.pfx → ¬ AgreeOn (k.pfx + 1) m.first a

/-- Some stored network is the single address `a`. -/
def StoredHost (S : Network → Prop) (a : Addr) : Prop := ∃ n, S n ∧ IsHost n ∧ value n.first = value a

theorem agreeOn_iff {m : Network} (hm : Block m) (a : Addr) {p : Nat} (hp : p ≤ m.pfx) :
    AgreeOn p m.first a ↔ (bits a).take p <+: path m := by
  have hle := hm.le
  unfold AgreeOn
  rw [← natOfBits_take _ _ (by omega), ← natOfBits_take _ _ (by omega)]
  have hpm : (path m).take p = (bits m.first).take p := by
    unfold path; rw [List.take_take, Nat.min_eq_left hp]
  rw [List.prefix_iff_eq_take, List.length_take, length_bits, Nat.min_eq_left (by omega : p ≤ 128), hpm]
  constructor
  · intro h; exact (natOfBits_inj (by simp) h).symm
  · intro h; rw [h]

theorem host_iff {t : Tree} (hw : WF t) (hp : PrunedRoot t) (a : Addr) : ex t (bits a) = true ↔ StoredHost (· ∈ t.networks) a := by
  rw [prunedRoot_ex hw hp]
  constructor
  · rintro (h | ⟨n, hn, h⟩)
    · exact absurd (congrArg List.length h) (by simp)
    · have hb := ((mem_networks_wf hw).mp hn).1
      have hle := hb.le
      have hlen := h.length_le
      rw [length_bits, length_path hle] at hlen
      have h128 : n.pfx = 128 := by omega
      have heq : bits a = path n := h.eq_of_length (by rw [length_bits, length_path hle, h128])
      refine ⟨n, hn, h128, ?_⟩
      have : bits n.first = path n := by unfold path; rw [h128, List.take_of_length_le (by simp)]
      rw [value_eq_natOfBits, value_eq_natOfBits, this, heq]
  · rintro ⟨n, hn, h128, hv⟩
    refine .inr ⟨n, hn, ?_⟩
    have : bits n.first = path n := by unfold path; rw [show n.pfx = 128 from h128, List.take_of_length_le (by simp)]
    rw [← this, value_inj hv]
    exact List.prefix_refl _

/-! ## C20 -/

/-- Looking up an address reaches beyond the 16 octets of an address exactly if the address itself is stored as a
    single-address network; nothing else goes wrong. -/
theorem lookup_oob_iff {K : Type} {ctz0 : Nat} (h0 : 8 ≤ ctz0) {key1 key2 : Option K} {ops : List (WOp K)} {e : WEnv K}
    {w : Writer K} {f : Bytes} (h : Written ctz0 key1 key2 ops e w f) {db : Db} (ho : dbOpen f = .ok db) (a : Addr) :
    (lookup db a = .error .oob ↔ StoredHost (· ∈ w.networks.networks) a) ∧
    (¬ StoredHost (· ∈ w.networks.networks) a → ∃ r, lookup db a = .ok (.ok r)) := by
  obtain ⟨db', ho', hh⟩ := written_holds h0 h
  rw [ho] at ho'
  cases ho'
  obtain ⟨l1, l2⟩ := lookup_spec hh a
  have hx := host_iff hh.wf hh.pruned a
  cases hex : ex w.networks (bits a) with
  | true => exact ⟨⟨fun _ => hx.mp hex, fun _ => l1 hex⟩, fun hn => absurd (hx.mp hex) hn⟩
  | false =>
    obtain ⟨w', -, -, -, -, l3⟩ := l2 hex
    have hno : ¬ StoredHost (· ∈ w.networks.networks) a := fun hs => by rw [hx.mpr hs] at hex; cases hex
    exact ⟨⟨fun he => (by rw [l3] at he; cases he), fun hs => absurd hs hno⟩, fun _ => ⟨_, l3⟩⟩

/-- `loc_database_lookup` stays inside the 16 octets of the address, except for addresses stored as a single-address
    network.  Missing from the full claim: these addresses, for which it does not hold (`lookup_bounds_violated`). -/
theorem lookup_bounds_partial {K : Type} {ctz0 : Nat} (h0 : 8 ≤ ctz0) {key1 key2 : Option K} {ops : List (WOp K)} {e : WEnv K}
    {w : Writer K} {f : Bytes} (h : Written ctz0 key1 key2 ops e w f) {db : Db} (ho : dbOpen f = .ok db) (a : Addr)
    (hn : ¬ StoredHost (· ∈ w.networks.networks) a) : ∃ r, lookup db a = .ok (.ok r) :=
  (lookup_oob_iff h0 h ho a).2 hn

/-! ## C15 -/

/-- A lookup that returns a network returns a stored network that contains the address; no more specific stored
    network does.  It is returned with country code, AS number and the 16 flag bits that are in the file. -/
theorem lookup_sound {K : Type} {ctz0 : Nat} (h0 : 8 ≤ ctz0) {key1 key2 : Option K} {ops : List (WOp K)} {e : WEnv K}
    {w : Writer K} {f : Bytes} (h : Written ctz0 key1 key2 ops e w f) {db : Db} (ho : dbOpen f = .ok db) {a : Addr} {m : Network}
    (hl : lookup db a = .ok (.ok (some m))) :
    Block m ∧ Contains m a ∧ ∃ k, MostSpecific (· ∈ w.networks.networks) a k ∧ SameBlock m k ∧
      props m = ((props k).1, k.asn, BitVec.ofNat 32 (k.flags.toNat % 2 ^ 16)) := by
  obtain ⟨db', ho', hh⟩ := written_holds h0 h
  rw [ho] at ho'
  cases ho'
  obtain ⟨l1, l2⟩ := lookup_spec hh a
  cases hex : ex w.networks (bits a) with
  | true => rw [l1 hex] at hl; cases hl
  | false =>
    obtain ⟨u, u1, u2, u3, u4, l3⟩ := l2 hex
    rw [l3] at hl
    injection hl with hl
    injection hl with hl
    unfold deepest at hl
    split at hl
    · cases hl
    rename_i k hk
    split at hl
    · cases hl
    cases hl
    obtain ⟨hb, hpk⟩ := look_block hh.wf hk
    have hc : Contains (readBack k) a := by
      rw [contains_iff_path (readBack_block hb), readBack_path, hpk]; exact u1
    have hc' : Contains k a := hc
    refine ⟨readBack_block hb, hc, k, ⟨(mem_networks _ _).mpr ⟨u, hk⟩, hc', ?_⟩, ⟨rfl, rfl⟩, ?_⟩
    · intro m hm hma
      obtain ⟨hbm, hlm⟩ := (mem_networks_wf hh.wf).mp hm
      by_contra hlt
      have hlen : u.length = k.pfx := by rw [← hpk, length_path hb.le]
      have h1 : (bits a).take (u.length + 1) <+: path m := by
        have h2 := (contains_iff_path hbm a).mp hma
        rw [List.prefix_iff_eq_take, length_path hbm.le] at h2
        rw [h2]
        exact List.take_prefix_take_left (by omega)
      rw [ex_prefix h1 (look_ex hlm)] at u4
      cases u4
    · unfold props readBack
      simp only [Prod.mk.injEq, and_true]
      by_cases hz : k.cc0 = 0
      · rw [if_pos hz, if_pos hz]
      · rw [if_neg hz, if_neg hz, if_neg hz]

/-- In terms of the calls of the caller: the networks in the file of a writer resolve every address to the same
    properties as the networks that were added. -/
theorem write_preserves_lookup {K : Type} {ctz0 : Nat} (h0 : 8 ≤ ctz0) {key1 key2 : Option K} {ops : List (WOp K)} {e : WEnv K}
    {w : Writer K} {f : Bytes} (h : Written ctz0 key1 key2 ops e w f) (hnw : ∀ op ∈ ops, IsWrite op = false) (a : Addr) :
    (∀ p, Resolves (· ∈ networksOf ops) a p ↔ Resolves (· ∈ w.networks.networks) a p) ∧
    ((∃ n ∈ networksOf ops, Contains n a) ↔ ∃ n ∈ w.networks.networks, Contains n a) := by
  have he := Written.ctz h
  obtain ⟨w0, s, sig1, sig2, tail, db', hw0, -, -, -, -, hcl, -⟩ := written_view h0 h
  have hmem := writes_networks h0 hw0 hnw
  obtain ⟨t', hcl', hpres⟩ := cleanup_preserves_lookup e.ctz0 (by rw [he]; exact h0) e.reread (t := w0.networks) (he ▸ (winv hw0).reach)
  rw [hcl] at hcl'
  cases hcl'
  have hS : (fun n => n ∈ networksOf ops) = (fun n => n ∈ w0.networks.networks) := by funext n; exact propext (hmem n).symm
  have h1 := hpres a
  rw [← hS] at h1
  exact ⟨h1.1, by simpa only [hmem] using h1.2⟩

/-- In terms of the calls of the caller: a lookup in a file written after adding some networks only ever returns the
    properties of the most specific added network that contains the address. -/
theorem lookup_sound_added {K : Type} {ctz0 : Nat} (h0 : 8 ≤ ctz0) {key1 key2 : Option K} {ops : List (WOp K)} {e : WEnv K}
    {w : Writer K} {f : Bytes} (h : Written ctz0 key1 key2 ops e w f) (hnw : ∀ op ∈ ops, IsWrite op = false)
    (hf : ∀ n ∈ networksOf ops, n.flags.toNat < 2 ^ 16) {db : Db} (ho : dbOpen f = .ok db) {a : Addr} {m : Network}
    (hl : lookup db a = .ok (.ok (some m))) :
    Contains m a ∧ ∃ n, MostSpecific (· ∈ networksOf ops) a n ∧ props m = props n := by
  obtain ⟨-, hc, k, hk, -, hp⟩ := lookup_sound h0 h ho hl
  refine ⟨hc, ?_⟩
  obtain ⟨n, hn', hpn⟩ := ((write_preserves_lookup h0 h hnw a).1 (props k)).mpr ⟨k, hk, rfl⟩
  refine ⟨n, hn', ?_⟩
  have hfl : k.flags = n.flags := (congrArg (·.2.2) hpn).symm
  rw [hp, hpn, hfl, Nat.mod_eq_of_lt (hf n hn'.1)]
  simp only [BitVec.ofNat_toNat, BitVec.setWidth_eq, ← hfl]
  rfl

/-! ## C14 -/

/-- What a lookup returns: the network at the last node on the path of the address (if there is one), not the most
    specific network containing the address. -/
theorem lookup_exact {K : Type} {ctz0 : Nat} (h0 : 8 ≤ ctz0) {key1 key2 : Option K} {ops : List (WOp K)} {e : WEnv K}
    {w : Writer K} {f : Bytes} (h : Written ctz0 key1 key2 ops e w f) {db : Db} (ho : dbOpen f = .ok db) {a : Addr}
    (hn : ¬ StoredHost (· ∈ w.networks.networks) a) :
    ∃ r, lookup db a = .ok (.ok r) ∧
      (r.isSome ↔ ∃ k, LastOnPath (· ∈ w.networks.networks) a k ∧ ¬ (k.pfx = 95 ∧ IsV4 a)) ∧
      ∀ m, r = some m → ∃ k, LastOnPath (· ∈ w.networks.networks) a k ∧ SameBlock m k := by
  obtain ⟨db', ho', hh⟩ := written_holds h0 h
  rw [ho] at ho'
  cases ho'
  obtain ⟨l1, l2⟩ := lookup_spec hh a
  cases hex : ex w.networks (bits a) with
  | true => exact absurd ((host_iff hh.wf hh.pruned a).mp hex) hn
  | false =>
    obtain ⟨u, u1, u2, u3, u4, l3⟩ := l2 hex
    -- the last node on the path
    have hlast : ∀ k, LastOnPath (· ∈ w.networks.networks) a k ↔ look w.networks u = some k := by
      intro k
      constructor
      · rintro ⟨hk, hc, hl⟩
        obtain ⟨hb, hlk⟩ := (mem_networks_wf hh.wf).mp hk
        have hka := (contains_iff_path hb a).mp hc
        have hle := hb.le
        have hlen := length_path hle
        rcases prefix_or_prefix hka u1 with h1 | h1
        · by_cases heq : (path k).length = u.length
          · rw [← h1.eq_of_length heq]; exact hlk
          · have h2 := h1.length_le
            rcases (prunedRoot_ex hh.wf hh.pruned u).mp u3 with h3 | ⟨m, hm, h3⟩
            · subst h3; simp at h2; rw [h2] at heq; exact absurd rfl heq
            · have hbm := ((mem_networks_wf hh.wf).mp hm).1
              have h4 := h3.length_le
              rw [length_path hbm.le] at h4
              refine absurd ?_ (hl m hm (by omega))
              rw [agreeOn_iff hbm a (by omega)]
              refine List.IsPrefix.trans ?_ h3
              rw [List.prefix_iff_eq_take.mp u1]
              exact List.take_prefix_take_left (by omega)
        · by_cases heq : u.length = (path k).length
          · rw [h1.eq_of_length heq]; exact hlk
          · have h2 := h1.length_le
            have h5 : (bits a).take (u.length + 1) <+: path k := by
              rw [List.prefix_iff_eq_take.mp hka]
              exact List.take_prefix_take_left (by omega)
            rw [ex_prefix h5 (look_ex hlk)] at u4
            cases u4
      · intro hk
        obtain ⟨hb, hpk⟩ := look_block hh.wf hk
        have hlen : u.length = k.pfx := by rw [← hpk, length_path hb.le]
        refine ⟨(mem_networks _ _).mpr ⟨u, hk⟩, (contains_iff_path hb a).mpr (by rw [hpk]; exact u1), ?_⟩
        intro m hm hlt hag
        obtain ⟨hbm, hlm⟩ := (mem_networks_wf hh.wf).mp hm
        have hag' := (agreeOn_iff hbm a (p := k.pfx + 1) (by omega)).mp hag
        rw [← hlen] at hag'
        rw [ex_prefix hag' (look_ex hlm)] at u4
        cases u4
    refine ⟨deepest w.networks a u, l3, ?_, ?_⟩
    · unfold deepest
      constructor
      · intro hs
        cases hk : look w.networks u with
        | none => rw [hk] at hs; cases hs
        | some k =>
          rw [hk] at hs
          refine ⟨k, (hlast k).mpr hk, ?_⟩
          rintro ⟨h1, h2⟩
          simp only [if_pos (⟨h1, (isV4Mapped_iff a).mpr h2⟩ : k.pfx = 95 ∧ isV4Mapped a = true)] at hs
          cases hs
      · rintro ⟨k, hk, h1⟩
        have := (hlast k).mp hk
        simp only [this]
        rw [if_neg (fun h => h1 ⟨h.1, (isV4Mapped_iff a).mp h.2⟩)]
        rfl
    · intro m hm
      unfold deepest at hm
      split at hm
      · cases hm
      rename_i k hk
      split at hm
      · cases hm
      cases hm
      exact ⟨k, (hlast k).mpr hk, rfl, rfl⟩

/-- The full claim for an address and a database: the lookup succeeds and returns the most specific stored network
    that contains the address, nothing if there is none. -/
def LongestPrefixMatch (S : Network → Prop) (db : Db) (a : Addr) : Prop :=
  ∃ r, lookup db a = .ok (.ok r) ∧ (∀ k, MostSpecific S a k → ∃ m, r = some m ∧ SameBlock m k) ∧
    ((∀ k, S k → ¬ Contains k a) → r = none)

/-- Longest-prefix match holds for every address that is not stored as a single-address network, is not an IPv4 address whose most specific
    network is ::fffe:0:0/95, and whose most specific network holds no further stored network on the same side as
    the address.  Missing from the full claim: all other addresses, where it fails
    (`lookup_violated`, `lookup_misses`). -/
theorem lookup_longest_prefix_partial {K : Type} {ctz0 : Nat} (h0 : 8 ≤ ctz0) {key1 key2 : Option K} {ops : List (WOp K)} {e : WEnv K}
    {w : Writer K} {f : Bytes} (h : Written ctz0 key1 key2 ops e w f) {db : Db} (ho : dbOpen f = .ok db) {a : Addr}
    (hn : ¬ StoredHost (· ∈ w.networks.networks) a)
    (hk : ∀ k, MostSpecific (· ∈ w.networks.networks) a k → ¬ (k.pfx = 95 ∧ IsV4 a) ∧
      ∀ m ∈ w.networks.networks, k.pfx < m.pfx → ¬ AgreeOn (k.pfx + 1) m.first a) :
    LongestPrefixMatch (· ∈ w.networks.networks) db a := by
  obtain ⟨r, h1, h2, h3⟩ := lookup_exact h0 h ho hn
  refine ⟨r, h1, ?_, ?_⟩
  · intro k hms
    obtain ⟨k1, k2⟩ := hk k hms
    obtain ⟨m, hm⟩ := Option.isSome_iff_exists.mp (h2.mpr ⟨k, ⟨hms.1, hms.2.1, k2⟩, k1⟩)
    subst hm
    obtain ⟨-, -, k', hms', hsb, -⟩ := lookup_sound h0 h ho h1
    refine ⟨m, rfl, hsb.1.trans ?_, hsb.2.trans ?_⟩
    · obtain ⟨db', ho', hh⟩ := written_holds h0 h
      have hb := ((mem_networks_wf hh.wf).mp hms.1).1
      have hb' := ((mem_networks_wf hh.wf).mp hms'.1).1
      have e1 := hms.2.2 k' hms'.1 hms'.2.1
      have e2 := hms'.2.2 k hms.1 hms.2.1
      have c1 := (contains_iff_path hb a).mp hms.2.1
      have c2 := (contains_iff_path hb' a).mp hms'.2.1
      have : path k' = path k := by
        rw [List.prefix_iff_eq_take.mp c1, List.prefix_iff_eq_take.mp c2, length_path hb.le, length_path hb'.le]
        rw [show k.pfx = k'.pfx by omega]
      exact ((sameBlock_iff_path hb' hb).mpr this).1
    · have e1 := hms.2.2 k' hms'.1 hms'.2.1
      have e2 := hms'.2.2 k hms.1 hms.2.1
      omega
  · intro hnone
    cases r with
    | none => rfl
    | some m =>
      obtain ⟨k, hk, -⟩ := h3 m rfl
      exact absurd hk.2.1 (hnone k hk.1)

/-- For databases without nested networks (and without single-address networks equal to the address) the lookup is a longest-prefix match. -/
theorem lookup_longest_prefix_disjoint {K : Type} {ctz0 : Nat} (h0 : 8 ≤ ctz0) {key1 key2 : Option K} {ops : List (WOp K)} {e : WEnv K}
    {w : Writer K} {f : Bytes} (h : Written ctz0 key1 key2 ops e w f) {db : Db} (ho : dbOpen f = .ok db) {a : Addr}
    (hn : ¬ StoredHost (· ∈ w.networks.networks) a) (hdis : PairwiseDisjoint w.networks.networks)
    (h95 : ∀ n ∈ w.networks.networks, Contains n a → ¬ (n.pfx = 95 ∧ IsV4 a)) :
    LongestPrefixMatch (· ∈ w.networks.networks) db a := by
  apply lookup_longest_prefix_partial h0 h ho hn
  intro k hk
  refine ⟨h95 k hk.1 hk.2.1, ?_⟩
  intro m hm hlt hag
  obtain ⟨db', ho', hh⟩ := written_holds h0 h
  have hb := ((mem_networks_wf hh.wf).mp hk.1).1
  have hbm := ((mem_networks_wf hh.wf).mp hm).1
  have hne : k ≠ m := by rintro rfl; omega
  have hdis' : ∀ x, ¬ (Contains k x ∧ Contains m x) := by
    obtain ⟨i, hi, rfl⟩ := List.mem_iff_getElem.mp hk.1
    obtain ⟨j, hj, rfl⟩ := List.mem_iff_getElem.mp hm
    have hp := List.pairwise_iff_getElem.mp hdis
    intro x hx
    rcases Nat.lt_trichotomy i j with hij | hij | hij
    · exact hp i j hi hj hij x hx
    · subst hij; exact hne rfl
    · exact hp j i hj hi hij x ⟨hx.2, hx.1⟩
  refine hdis' m.first ⟨?_, first_contains hbm⟩
  rw [contains_iff_path hb]
  refine List.IsPrefix.trans ?_ ((contains_iff_path hbm _).mp (first_contains hbm))
  refine List.IsPrefix.trans ?_ ((agreeOn_iff hbm a (by omega)).mp hag)
  rw [List.prefix_iff_eq_take.mp ((contains_iff_path hb a).mp hk.2.1), length_path hb.le]
  exact List.take_prefix_take_left (by omega)

/-- Where the lookup fails: whenever the most specific network holds another stored network that shares its next bit
    with the address, nothing is found at all. -/
theorem lookup_misses {K : Type} {ctz0 : Nat} (h0 : 8 ≤ ctz0) {key1 key2 : Option K} {ops : List (WOp K)} {e : WEnv K}
    {w : Writer K} {f : Bytes} (h : Written ctz0 key1 key2 ops e w f) {db : Db} (ho : dbOpen f = .ok db) {a : Addr}
    (hn : ¬ StoredHost (· ∈ w.networks.networks) a) {k m : Network} (hk : MostSpecific (· ∈ w.networks.networks) a k)
    (hm : m ∈ w.networks.networks) (hlt : k.pfx < m.pfx) (hag : AgreeOn (k.pfx + 1) m.first a) :
    lookup db a = .ok (.ok none) := by
  obtain ⟨r, h1, -, h3⟩ := lookup_exact h0 h ho hn
  cases r with
  | none => exact h1
  | some x =>
    obtain ⟨k', hl, hs⟩ := h3 x rfl
    obtain ⟨-, -, k'', hk'', hs', -⟩ := lookup_sound h0 h ho h1
    have e1 := hk.2.2 k'' hk''.1 hk''.2.1
    have e2 := hk''.2.2 k hk.1 hk.2.1
    have e3 := hs.2
    have e4 := hs'.2
    have e5 : k'.pfx = k.pfx := by omega
    exact absurd (e5 ▸ hag) (hl.2.2 m hm (by omega))

theorem demo_nowrite : ∀ op ∈ demoOps, IsWrite op = false := by decide

/-- The networks in the file that is written after the calls `ops`. -/
def storedOf (ops : List (WOp Unit)) : Option (List Network) :=
  match treeOf treeNew ops with
  | none => none
  | some t => match treeCleanup 32 demoEnv.reread t with
    | .error _ => none
    | .ok t => some t.networks

/-- A file that is written after the calls `ops`, opened again; the networks in it are `l`. -/
theorem example_file {ops : List (WOp Unit)} (hok : ∀ op ∈ ops, OpOk 32 op) (hnw : ∀ op ∈ ops, IsWrite op = false) {l : List Network}
    (h : ((outcome demoEnv ops).map (·.1)).any (· < 2 ^ 32) = true) (hl : storedOf ops = some l) :
    ∃ w f db, Written 32 none none ops demoEnv w f ∧ dbOpen f = .ok db ∧ w.networks.networks = l := by
  obtain ⟨w, f, hf, -⟩ := outcome_exists (e := demoEnv) rfl hok h
  obtain ⟨w0, s, sig1, sig2, tail, db, hw0, hv, -, -, -, hcl, -⟩ := written_view (by decide) hf
  refine ⟨w, f, db, hf, hv.opened, ?_⟩
  unfold storedOf at hl
  rw [writes_tree hw0 hnw] at hl
  simp only at hl
  rw [show treeCleanup 32 demoEnv.reread w0.networks = .ok w.networks from hcl] at hl
  cases hl
  rfl

/-- The example database: 10.0.0.0/8 in DE and 10.1.0.0/16. -/
theorem demo_file : ∃ w f db, Written 32 none none demoOps demoEnv w f ∧ dbOpen f = .ok db ∧
    w.networks.networks = [net10_8, net10_1_16] := example_file demo_ok demo_nowrite (by decide +kernel) (by decide +kernel)

instance (S : List Network) (a : Addr) : Decidable (StoredHost (· ∈ S) a) :=
  decidable_of_iff (∃ n ∈ S, n.pfx = 128 ∧ value n.first = value a) ⟨fun ⟨n, a, b, c⟩ => ⟨n, a, b, c⟩, fun ⟨n, a, b, c⟩ => ⟨n, a, b, c⟩⟩

/-- In the example database 10.1.2.3 and 10.128.0.1 meet the hypotheses. -/
example : ∃ w f db, Written 32 none none demoOps demoEnv w f ∧ dbOpen f = .ok db ∧
    LongestPrefixMatch (· ∈ w.networks.networks) db (ip4 10 1 2 3) ∧ LongestPrefixMatch (· ∈ w.networks.networks) db (ip4 10 128 0 1) := by
  obtain ⟨w, f, db, h1, h2, h3⟩ := demo_file
  refine ⟨w, f, db, h1, h2, ?_, ?_⟩
  · apply lookup_longest_prefix_partial (by decide) h1 h2
    · rw [h3]; decide +kernel
    · rw [h3]
      have key : ∀ k ∈ [net10_8, net10_1_16], (∀ m ∈ [net10_8, net10_1_16], Contains m (ip4 10 1 2 3) → m.pfx ≤ k.pfx) →
          ¬ (k.pfx = 95 ∧ IsV4 (ip4 10 1 2 3)) ∧ ∀ m ∈ [net10_8, net10_1_16], k.pfx < m.pfx →
            ¬ value m.first / 2 ^ (128 - (k.pfx + 1)) = value (ip4 10 1 2 3) / 2 ^ (128 - (k.pfx + 1)) := by
        decide +kernel
      rintro k ⟨k1, k2, k3⟩
      exact key k k1 k3
  · apply lookup_longest_prefix_partial (by decide) h1 h2
    · rw [h3]; decide +kernel
    · rw [h3]
      have key : ∀ k ∈ [net10_8, net10_1_16], Contains k (ip4 10 128 0 1) →
          ¬ (k.pfx = 95 ∧ IsV4 (ip4 10 128 0 1)) ∧ ∀ m ∈ [net10_8, net10_1_16], k.pfx < m.pfx →
            ¬ value m.first / 2 ^ (128 - (k.pfx + 1)) = value (ip4 10 128 0 1) / 2 ^ (128 - (k.pfx + 1)) := by
        decide +kernel
      rintro k ⟨k1, k2, k3⟩
      exact key k k1 k2

/-- In the same database 10.0.0.1, an address of 10.0.0.0/8, is not found: the lookup ends below 10.0.0.0/8 on the
    path to 10.1.0.0/16 and does not return to it. -/
theorem lookup_violated : ∃ w f db, Written 32 none none demoOps demoEnv w f ∧ dbOpen f = .ok db ∧
    (∃ n ∈ networksOf demoOps, Contains n (ip4 10 0 0 1)) ∧ (∃ n ∈ w.networks.networks, Contains n (ip4 10 0 0 1)) ∧
    lookup db (ip4 10 0 0 1) = .ok (.ok none) := by
  obtain ⟨w, f, db, h1, h2, h3⟩ := demo_file
  refine ⟨w, f, db, h1, h2, by decide +kernel, by rw [h3]; decide +kernel, ?_⟩
  refine lookup_misses (by decide) h1 h2 (k := net10_8) (m := net10_1_16) ?_ ?_ ?_ (by decide) (by unfold AgreeOn; decide +kernel)
  · rw [h3]; decide +kernel
  · rw [h3]
    refine ⟨by decide +kernel, by decide +kernel, ?_⟩
    intro m hm
    revert m
    decide +kernel
  · rw [h3]; decide +kernel

/-- A database with ::fffe:0:0/95, which holds all IPv4 addresses. -/
def odd95Ops : List (WOp Unit) := [.addNetwork netFFFE95]

theorem odd95_ok : ∀ op ∈ odd95Ops, OpOk 32 op := by
  intro op h
  simp only [odd95Ops, List.mem_singleton] at h
  subst h
  exact .new (show newNetwork netFFFE95.first 95 = .ok netFFFE95 by decide +kernel)

/-- No IPv4 address is found in it. -/
theorem lookup_violated_95 : ∃ w f db, Written 32 none none odd95Ops demoEnv w f ∧ dbOpen f = .ok db ∧
    w.networks.networks = [netFFFE95] ∧ ∀ a, IsV4 a → Contains netFFFE95 a ∧ lookup db a = .ok (.ok none) := by
  obtain ⟨w, f, db, h1, h2, h3⟩ := example_file odd95_ok (l := [netFFFE95]) (by decide) (by decide +kernel) (by decide +kernel)
  refine ⟨w, f, db, h1, h2, h3, fun a ha => ⟨?_, ?_⟩⟩
  · have h4 : value netFFFE95.first = 0xfffe00000000 := by decide
    have h5 : value netFFFE95.last = 0xffffffffffff := by decide
    unfold Contains
    rw [h4, h5]
    unfold IsV4 at ha
    omega
  · obtain ⟨r, l1, l2, -⟩ := lookup_exact (by decide) h1 h2 (a := a) (by
      rw [h3]
      rintro ⟨n, hn, hh, -⟩
      rw [List.mem_singleton] at hn
      subst hn
      cases hh)
    cases r with
    | none => exact l1
    | some m =>
      obtain ⟨k, hk, hne⟩ := l2.mp rfl
      have := hk.1
      rw [h3, List.mem_singleton] at this
      subst this
      exact absurd ⟨rfl, ha⟩ hne

/-- 10.0.0.1/32 -/
def hostNet : Network := mk4 (ip4 10 0 0 1) (ip4 10 0 0 1) 32
def hostOps : List (WOp Unit) := [.addNetwork hostNet]

theorem host_ok : ∀ op ∈ hostOps, OpOk 32 op := by
  intro op h
  simp only [hostOps, List.mem_singleton] at h
  subst h
  exact .new (show newNetwork (ip4 10 0 0 1) 32 = .ok hostNet by decide +kernel)

/-- In a database with the network 10.0.0.1/32, looking up 10.0.0.1 reads and writes bit 128 of an address of 128
    bits. -/
theorem lookup_bounds_violated : ∃ w f db, Written 32 none none hostOps demoEnv w f ∧ dbOpen f = .ok db ∧
    lookup db (ip4 10 0 0 1) = .error .oob := by
  obtain ⟨w, f, db, h1, h2, h3⟩ := example_file host_ok (l := [hostNet]) (by decide) (by decide +kernel) (by decide +kernel)
  refine ⟨w, f, db, h1, h2, (lookup_oob_iff (by decide) h1 h2 _).1.mpr ?_⟩
  rw [h3]
  decide +kernel

end Loc.Props
