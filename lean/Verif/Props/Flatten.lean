import Verif.Lemmas.Flatten
import Verif.Props.Networks
/-
C28: flattened enumerations.
-/
namespace Loc.Props
open Loc Loc.Spec

theorem flat_written {K : Type} {ctz0 : Nat} (h0 : 8 ≤ ctz0) {key1 key2 : Option K} {ops : List (WOp K)} {e : WEnv K}
    {w : Writer K} {f : Bytes} (h : Written ctz0 key1 key2 ops e w f) {db : Db} (ho : dbOpen f = .ok db)
    (hd : ¬ TooDeep (· ∈ w.networks.networks)) (hv : ∀ n ∈ w.networks.networks, ¬ AroundV4 n) (flt : Filter) :
    EnumAt db (enumNew flt) (w.networks.networks.map readBack) ∧ Ascending (w.networks.networks.map readBack) ∧
      ∀ n ∈ w.networks.networks, Block n ∧ CountryOk n := by
  obtain ⟨db', ho', hh⟩ := written_holds h0 h
  rw [ho] at ho'
  cases ho'
  have hn : need w.networks ≤ 255 := by
    have := mt (tooDeep_iff hh.wf hh.pruned).mp hd
    omega
  refine ⟨enumNew_at hh flt hn (fun n hn hs => hv n hn ((stale_iff ((mem_networks_wf hh.wf).mp hn).1).mp hs)), ?_, ?_⟩
  · unfold Ascending
    rw [List.pairwise_map]
    exact networks_ascending hh.wf.1
  · exact fun n hn => ⟨((mem_networks_wf hh.wf).mp hn).1, hh.country n hn⟩

/-- What is wanted depends on what can be observed. -/
theorem wanted_congr {f : Filter} {m n : Network} (h1 : SameBlock m n) (h2 : props m = props n) : Wanted f m ↔ Wanted f n := by
  have h3 : m.asn = n.asn := congrArg (·.2.1) h2
  have h4 : m.flags = n.flags := congrArg (·.2.2) h2
  unfold Wanted
  rw [h2, h3, h4, value_inj h1.1]

/-- What can be read from the file, and what can be observed of it. -/
theorem cov_written {l : List Network} (hb : ∀ n ∈ l, Block n ∧ CountryOk n) {flt : Filter} (hflt : FilterOk flt) (a : Addr) (p : CStr × BitVec 32 × BitVec 32) :
    Cov flt (l.map readBack) a p ↔ ∃ n k, MostSpecific (· ∈ l) a n ∧ ReadFrom n k ∧ Wanted flt k ∧ props k = p := by
  constructor
  · rintro ⟨k, ⟨h1, h2, h3⟩, h4, h5⟩
    obtain ⟨n, hn, rfl⟩ := List.mem_map.mp h1
    refine ⟨n, readBack n, ⟨hn, h2, fun m hm hma => h3 (readBack m) (List.mem_map_of_mem hm) hma⟩, readFrom_readBack n, ?_, h5⟩
    exact (matchNetwork_iff hflt (readBack_block (hb n hn).1) (readBack_countryOk (hb n hn).2)).mp h4
  · rintro ⟨n, k, ⟨h1, h2, h3⟩, h4, h5, h6⟩
    have hrb := readFrom_readBack n
    have hsame : SameBlock (readBack n) k := ⟨h4.1.1.symm, h4.1.2.symm⟩
    have hp : props (readBack n) = props k := hrb.2.trans h4.2.symm
    refine ⟨readBack n, ⟨List.mem_map_of_mem h1, h2, ?_⟩, ?_, hp.trans h6⟩
    · intro m hm hma
      obtain ⟨m, hm', rfl⟩ := List.mem_map.mp hm
      exact h3 m hm' hma
    · exact (matchNetwork_iff hflt (readBack_block (hb n h1).1) (readBack_countryOk (hb n h1).2)).mpr ((wanted_congr hsame hp).mpr h5)

/-- A flattened enumeration of any database that can be enumerated (C16, C19) ends; the networks it returns are disjoint,
    ascending CIDR blocks; all their addresses have a most specific stored network (as it is read back) that is wanted by the
    filter, with their country, AS number and flags.  If it ends without an error, no such address is missing.  It ends with
    an error only in front of a stored network with another one inside such that one of the two odd blocks would have to be cut;
    then no such address in front of that network is missing. -/
theorem flattened_sound {K : Type} {ctz0 : Nat} (h0 : 8 ≤ ctz0) {key1 key2 : Option K} {ops : List (WOp K)} {e : WEnv K}
    {w : Writer K} {f : Bytes} (h : Written ctz0 key1 key2 ops e w f) {db : Db} (ho : dbOpen f = .ok db)
    (hd : ¬ TooDeep (· ∈ w.networks.networks)) (hv : ∀ n ∈ w.networks.networks, ¬ AroundV4 n) {flt : Filter} (hflt : FilterOk flt) :
    ∃ R ended s steps, (∀ f0 fuel, steps ≤ f0 → steps ≤ fuel → drain (nextNetworkFlat db f0) fuel (enumNew flt) = .ok (R, ended, s)) ∧
      PairwiseDisjoint R ∧ Ascending R ∧ (∀ n ∈ R, Block n) ∧
      (∀ m ∈ R, ∀ a, Contains m a → ∃ n k, MostSpecific (· ∈ w.networks.networks) a n ∧ ReadFrom n k ∧ Wanted flt k ∧ props k = props m) ∧
      (ended = true → (∃ s', ∀ f0, 0 < f0 → nextNetworkFlat db f0 s = .ok (.done, s')) ∧
        ∀ a n k, MostSpecific (· ∈ w.networks.networks) a n → ReadFrom n k → Wanted flt k → ∃ m ∈ R, Contains m a ∧ props m = props k) ∧
      (ended = false → ∃ i ∈ w.networks.networks, ∃ j ∈ w.networks.networks, StrictlyInside j i ∧ CutsOddBlock i j ∧
        ∀ a n k, value a < value i.first → MostSpecific (· ∈ w.networks.networks) a n → ReadFrom n k → Wanted flt k →
          ∃ m ∈ R, Contains m a ∧ props m = props k) := by
  obtain ⟨g1, g2, g3⟩ := flat_written h0 h ho hd hv flt
  have hg : Ahead (w.networks.networks.map readBack) := by
    refine ⟨g2, ?_, ?_⟩
    · intro n hn
      obtain ⟨n, hn', rfl⟩ := List.mem_map.mp hn
      exact readBack_block (g3 n hn').1
    · intro n hn
      obtain ⟨n, hn', rfl⟩ := List.mem_map.mp hn
      exact readBack_countryOk (g3 n hn').2
  obtain ⟨R, b, s, K, r1, r⟩ := drain_flat hflt _ _ _ _ g1 hg rfl (Nat.le_refl _) (Nat.le_refl _)
  refine ⟨R, b, s, K, r1, ?_, ?_, r.blk, ?_, ?_, ?_⟩
  · exact r.left.imp fun h a => leftOf_not_share h a
  · unfold Ascending
    refine List.Pairwise.imp_of_mem ?_ r.left
    intro m n hm hn h
    exact before_of_last_lt (r.blk m hm) h
  · intro m hm a ha
    exact (cov_written g3 hflt a _).mp (r.sound a _ ⟨m, hm, ha, rfl⟩)
  · intro hb
    refine ⟨?_, fun a n k h1 h2 h3 => (r.whole hb).2 a _ ((cov_written g3 hflt a _).mpr ⟨n, k, h1, h2, h3, rfl⟩)⟩
    obtain ⟨s', hs⟩ := flat_done (r.whole hb).1
    refine ⟨s', fun f0 hf0 => ?_⟩
    obtain ⟨k, rfl⟩ : ∃ k, f0 = k + 1 := ⟨f0 - 1, by omega⟩
    exact hs k
  · intro hb
    obtain ⟨i, hi, j, hj, q1, q2, q3⟩ := r.stuck hb
    obtain ⟨i, hi', rfl⟩ := List.mem_map.mp hi
    obtain ⟨j, hj', rfl⟩ := List.mem_map.mp hj
    exact ⟨i, hi', j, hj', q1, q2, fun a n k hlt h1 h2 h3 => q3 a _ ((cov_written g3 hflt a _).mpr ⟨n, k, h1, h2, h3, rfl⟩) hlt⟩

/-- A flattened enumeration ends; the networks it returns are disjoint, ascending CIDR blocks; an address is covered
    exactly if its most specific stored network (as it is read back) is wanted by the filter, and the covering network
    has the country, AS number and flags of that network.  Missing: databases with a network and a strict subnet such
    that one of the two odd blocks would have to be cut (the enumeration may fail: `flattened_violated`), and the
    databases which cannot be enumerated at all (C16, C19). -/
theorem flattened_partition_partial {K : Type} {ctz0 : Nat} (h0 : 8 ≤ ctz0) {key1 key2 : Option K} {ops : List (WOp K)} {e : WEnv K}
    {w : Writer K} {f : Bytes} (h : Written ctz0 key1 key2 ops e w f) {db : Db} (ho : dbOpen f = .ok db)
    (hd : ¬ TooDeep (· ∈ w.networks.networks)) (hv : ∀ n ∈ w.networks.networks, ¬ AroundV4 n)
    (hodd : ∀ m ∈ w.networks.networks, ∀ n ∈ w.networks.networks, StrictlyInside m n → ¬ CutsOddBlock n m)
    {flt : Filter} (hflt : FilterOk flt) :
    ∃ R s steps, (∀ f0 fuel, steps ≤ f0 → steps ≤ fuel → drain (nextNetworkFlat db f0) fuel (enumNew flt) = .ok (R, true, s)) ∧
      (∃ s', ∀ f0, 0 < f0 → nextNetworkFlat db f0 s = .ok (.done, s')) ∧
      PairwiseDisjoint R ∧ Ascending R ∧ (∀ n ∈ R, Block n) ∧
      ∀ a p, (∃ m ∈ R, Contains m a ∧ props m = p) ↔
        ∃ n k, MostSpecific (· ∈ w.networks.networks) a n ∧ ReadFrom n k ∧ Wanted flt k ∧ props k = p := by
  obtain ⟨R, b, s, K, r1, r2, r3, r4, r5, r6, r7⟩ := flattened_sound h0 h ho hd hv hflt
  have hb : b = true := by
    cases b with
    | true => rfl
    | false =>
      obtain ⟨i, hi, j, hj, q1, q2, -⟩ := r7 rfl
      exact absurd q2 (hodd j hj i hi q1)
  subst hb
  refine ⟨R, s, K, r1, (r6 rfl).1, r2, r3, r4, fun a p => ⟨?_, ?_⟩⟩
  · rintro ⟨m, hm, hma, rfl⟩
    exact r5 m hm a hma
  · rintro ⟨n, k, h1, h2, h3, rfl⟩
    exact (r6 rfl).2 a n k h1 h2 h3

/-- The sample database (10.1.0.0/16 inside 10.0.0.0/8) meets the hypotheses, so that 10.128.0.1 is covered with the
    properties of 10.0.0.0/8 and 10.1.2.3 with those of 10.1.0.0/16. -/
example : ∃ w f db, Written 32 none none demoOps demoEnv w f ∧ dbOpen f = .ok db ∧ ∃ R s steps,
    (∀ f0 fuel, steps ≤ f0 → steps ≤ fuel → drain (nextNetworkFlat db f0) fuel (enumNew noFilter) = .ok (R, true, s)) ∧
    (∃ m ∈ R, Contains m (ip4 10 128 0 1) ∧ props m = props net10_8) ∧ (∃ m ∈ R, Contains m (ip4 10 1 2 3) ∧ props m = props net10_1_16) := by
  obtain ⟨w, f, db, h1, h2, h3, h4, h5⟩ := demo_plain
  have hodd : ∀ m ∈ [net10_8, net10_1_16], ∀ n ∈ [net10_8, net10_1_16], ¬ CutsOddBlock n m := by decide +kernel
  obtain ⟨R, s, steps, r1, -, -, -, -, r6⟩ := flattened_partition_partial (by decide) h1 h2 h4 h5
    (fun m hm n hn _ => hodd m (h3 ▸ hm) n (h3 ▸ hn)) (flt := noFilter) (by intro l hl; cases hl)
  rw [h3] at r6
  have hw : ∀ n, Wanted noFilter n := fun n => ⟨fun h => absurd rfl h, .inl ⟨rfl, rfl, rfl⟩⟩
  refine ⟨w, f, db, h1, h2, R, s, steps, r1, (r6 _ _).mpr ⟨net10_8, readBack net10_8, ?_, readFrom_readBack _, hw _, by decide +kernel⟩,
    (r6 _ _).mpr ⟨net10_1_16, readBack net10_1_16, ?_, readFrom_readBack _, hw _, by decide +kernel⟩⟩
  · have key : ∀ m ∈ [net10_8, net10_1_16], Contains m (ip4 10 128 0 1) → m.pfx ≤ net10_8.pfx := by decide +kernel
    exact ⟨by decide +kernel, by decide +kernel, key⟩
  · have key : ∀ m ∈ [net10_8, net10_1_16], Contains m (ip4 10 1 2 3) → m.pfx ≤ net10_1_16.pfx := by decide +kernel
    exact ⟨by decide +kernel, by decide +kernel, key⟩

/-! ## Violation -/

/-- ::/64, country DE -/
def net0_64 : Network := { family := .inet6, first := #v[0,0,0,0, 0,0,0,0, 0,0,0,0, 0,0,0,0], last := #v[0,0,0,0, 0,0,0,0, 0xff,0xff,0xff,0xff, 0xff,0xff,0xff,0xff], pfx := 64, cc0 := 68, cc1 := 69, asn := 0, flags := 0 }
/-- 8.0.0.0/8 -/
def net8_8 : Network := { family := .inet, first := #v[0,0,0,0, 0,0,0,0, 0,0,0xff,0xff, 8,0,0,0], last := #v[0,0,0,0, 0,0,0,0, 0,0,0xff,0xff, 8,0xff,0xff,0xff], pfx := 104, cc0 := 0, cc1 := 0, asn := 0, flags := 0 }

def flatOps : List (WOp Unit) := [.addNetwork net0_64, .addNetwork net8_8]

theorem flat_ok : ∀ op ∈ flatOps, OpOk 32 op := by
  intro op h
  simp only [flatOps, List.mem_cons, List.not_mem_nil, or_false] at h
  rcases h with rfl | rfl
  · exact .country (n := { net0_64 with cc0 := 0, cc1 := 0 }) (cc := some [68, 69])
      (.new (show newNetwork net0_64.first 64 = .ok { net0_64 with cc0 := 0, cc1 := 0 } by decide +kernel)) (by decide +kernel)
  · exact .new (show newNetwork net8_8.first 8 = .ok net8_8 by decide +kernel)

/-- In a database with ::/64 (DE) and 8.0.0.0/8 the first call of a flattened enumeration fails: to cut 8.0.0.0/8 out of
    ::/64 the block ::/79 would have to be cut. -/
theorem flattened_violated : ∃ w f db, Written 32 none none flatOps demoEnv w f ∧ dbOpen f = .ok db ∧
    w.networks.networks = [net0_64, net8_8] ∧ ∀ f0, 1 < f0 → ∃ s, nextNetworkFlat db f0 (enumNew noFilter) = .ok (.failedHeld, s) := by
  obtain ⟨w, f, db, h1, h2, h3⟩ := example_file (l := [net0_64, net8_8]) flat_ok (by decide) (by decide +kernel) (by decide +kernel)
  refine ⟨w, f, db, h1, h2, h3, fun f0 hf0 => ?_⟩
  obtain ⟨g1, g2, g3⟩ := flat_written (by decide) h1 h2 (by
    rw [h3]
    intro hd
    obtain ⟨n, hn, hh, -⟩ := tooDeep_host (S := (· ∈ [net0_64, net8_8])) (by decide) hd
    revert hh n
    unfold IsHost
    decide) (by
    rw [h3]
    unfold AroundV4
    decide +kernel) noFilter
  rw [h3] at g1 g2
  have ht : [readBack net8_8].takeWhile (isSubnet (readBack net0_64)) = [readBack net8_8] := by decide +kernel
  refine flat_fails (n := readBack net0_64) (post := [readBack net8_8]) g1 rfl g2 (by rw [ht]; simp) (err := EINVAL) ?_ f0 hf0
  rw [ht]
  have : (match excludeList (128 * [readBack net8_8].length + 1) (readBack net0_64) [readBack net8_8] with
    | .error (.err e) => e == EINVAL
    | _ => false) = true := by decide +kernel
  revert this
  split
  · rename_i e he
    intro h
    rw [he, eq_of_beq h]
  · intro h; cases h

/-- The same database meets the hypotheses of `flattened_sound`, with its last case. -/
example : ∃ w f db, Written 32 none none flatOps demoEnv w f ∧ dbOpen f = .ok db ∧ ¬ TooDeep (· ∈ w.networks.networks) ∧
    (∀ n ∈ w.networks.networks, ¬ AroundV4 n) ∧ FilterOk noFilter ∧
    ∃ R s steps, ∀ f0 fuel, steps ≤ f0 → steps ≤ fuel → drain (nextNetworkFlat db f0) fuel (enumNew noFilter) = .ok (R, false, s) := by
  obtain ⟨w, f, db, h1, h2, h3, h4⟩ := flattened_violated
  have hd : ¬ TooDeep (· ∈ w.networks.networks) := by
    rw [h3]
    intro hd
    obtain ⟨n, hn, hh, -⟩ := tooDeep_host (S := (· ∈ [net0_64, net8_8])) (by decide) hd
    revert hh n
    unfold IsHost
    decide
  have hv : ∀ n ∈ w.networks.networks, ¬ AroundV4 n := by
    rw [h3]
    unfold AroundV4
    decide +kernel
  have hf : FilterOk noFilter := by intro l hl; cases hl
  refine ⟨w, f, db, h1, h2, hd, hv, hf, ?_⟩
  obtain ⟨R, b, s, K, r1, -⟩ := flattened_sound (by decide) h1 h2 hd hv hf
  cases b with
  | false => exact ⟨R, s, K, r1⟩
  | true =>
    exfalso
    have := r1 (K + 2) (K + 1) (by omega) (by omega)
    obtain ⟨s', hs⟩ := h4 (K + 2) (by omega)
    rw [drain, hs] at this
    simp at this

/-- In a database with ::7fff:0:0/96 and ::8000:0:0/81 the first call of a flattened enumeration crashes: the second network
    cannot be read while subnets of the first one are searched for, and a null pointer is released. -/
theorem flattened_violated_crash : ∃ w f db, Written 32 none none aroundOps demoEnv w f ∧ dbOpen f = .ok db ∧
    w.networks.networks = [net7fff, net8000] ∧ ∀ f0, 0 < f0 → nextNetworkFlat db f0 (enumNew noFilter) = .error .oob := by
  obtain ⟨w, f, db, h1, h2, h3⟩ := example_tree around_ok (by decide) (by decide +kernel)
  have k1 : (treeStored aroundOps).map Tree.networks = some [net7fff, net8000] := by decide +kernel
  have k2 : (treeStored aroundOps).map (fun t => (walkAll (matchNetwork noFilter) [⟨0, [], t, 0⟩] (enumNew noFilter).address).1) = some [net7fff] := by decide +kernel
  have k3 : (treeStored aroundOps).map (fun t => (walkAll (matchNetwork noFilter) [⟨0, [], t, 0⟩] (enumNew noFilter).address).2.isSome) = some false := by decide +kernel
  have k4 : (treeStored aroundOps).map (fun t => decide (need t ≤ 255)) = some true := by decide +kernel
  rw [h3] at k1 k2 k3 k4
  simp only [Option.map_some, Option.some.injEq, decide_eq_true_eq] at k1 k2 k3 k4
  refine ⟨w, f, db, h1, h2, k1, fun f0 hf0 => ?_⟩
  obtain ⟨f0, rfl⟩ : ∃ k, f0 = k + 1 := ⟨f0 - 1, by omega⟩
  obtain ⟨db', ho', hh⟩ := written_holds (by decide) h1
  rw [h2] at ho'
  cases ho'
  obtain ⟨recs, nets, junk, enc, hi⟩ := enumNew_inv hh noFilter
  have hm : ∀ n, matchNetwork noFilter n = true := fun n => by simp [matchNetwork, noFilter]
  have hno : ¬ Over [⟨0, [], w.networks, 0⟩] := by
    rintro ⟨p, hp, hov⟩
    rw [List.mem_singleton] at hp
    subst hp
    simp only at hov
    omega
  obtain ⟨pre, -, q⟩ := dfs_run enc true (matchNetwork noFilter) (dfsFuel db (enumNew noFilter)) _ _ hi (by unfold work dfsFuel; omega)
    (fun n => by rw [hm]; show true = (!true || matchNetwork noFilter n); rw [hm]; rfl)
  rcases q with ⟨e1, -, -, r, -⟩ | ⟨n, e1, P, r1, -, -, r2, r3, r4, r5⟩ | ⟨r, -⟩ | ⟨n, e1, P, -, -, -, r, -⟩
  · rw [r] at k3; cases k3
  · rw [r2] at k2 k3
    simp only [List.cons.injEq] at k2
    obtain ⟨pre', -, q⟩ := dfs_run enc false (matchNetwork noFilter) (dfsFuel db e1) _ _ r3 (by unfold work dfsFuel; omega) (fun n => by rw [hm]; rfl)
    rcases q with ⟨e2, -, -, r, -⟩ | ⟨n, e2, P2, -, -, -, r, -⟩ | ⟨r, -⟩ | ⟨m, e2, P2, s, -⟩
    · rw [r] at k3; cases k3
    · rw [r] at k2; cases k2.2
    · exact absurd (r5.mp r) hno
    · obtain ⟨g1, g2, -⟩ := r4
      have t1 : nextNetworkRaw db true (enumNew noFilter) = .ok (.item (readBack n), e1) := r1
      have t2 : nextNetworkRaw db false e1 = .ok (.failed, e2) := by
        have hs : e1.stack = [] := g2
        unfold nextNetworkRaw
        rw [hs]
        show dfsLoop db false (dfsFuel db e1) { e1 with stack := [] } = _
        rw [← hs]
        exact s
      show nextFlat db (f0 + 1) _ = _
      rw [nextFlat, t1]
      simp only
      rw [collectSubnets, t2]
  · exact absurd r hno
  · rw [r] at k2; cases k2

end Loc.Props
