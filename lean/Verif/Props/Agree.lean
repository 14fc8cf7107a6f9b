import Verif.Props.Local
import Verif.Props.Bogon
import Verif.Props.NetworksSound
/-
C93: what lookups and enumerations of the same database say about an address.
-/
namespace Loc.Props
open Loc Loc.Spec

theorem wanted_noFilter (n : Network) : Wanted noFilter n := ⟨fun h => absurd rfl h, .inl ⟨rfl, rfl, rfl⟩⟩

/-- Networks with the same block contain the same addresses. -/
theorem contains_same {m n : Network} (bm : Block m) (bn : Block n) (h : SameBlock m n) (a : Addr) : Contains m a ↔ Contains n a := by
  unfold Contains
  rw [bm.last_eq, bn.last_eq, h.1, h.2]

/-- Whatever is the most specific network of an address, it has the properties which the lookup of that address returns. -/
theorem lookup_most_specific {K : Type} {ctz0 : Nat} (h0 : 8 ≤ ctz0) {key1 key2 : Option K} {ops : List (WOp K)} {e : WEnv K}
    {w : Writer K} {f : Bytes} (h : Written ctz0 key1 key2 ops e w f) {db : Db} (ho : dbOpen f = .ok db) {a : Addr} {m : Network}
    (hl : lookup db a = .ok (.ok (some m))) {n k : Network} (hn : MostSpecific (· ∈ w.networks.networks) a n) (hr : ReadFrom n k) :
    SameBlock m k ∧ props m = props k := by
  obtain ⟨hb, hc, j, hj, hs, hp⟩ := lookup_sound h0 h ho hl
  obtain ⟨db', ho', hh⟩ := written_holds h0 h
  obtain ⟨m1, m2, m3⟩ := hj
  obtain ⟨n1, n2, n3⟩ := hn
  obtain ⟨bm, lm⟩ := (mem_networks_wf hh.wf).mp m1
  obtain ⟨bn, ln⟩ := (mem_networks_wf hh.wf).mp n1
  have hs' := block_same_prefix bm bn (Nat.le_antisymm (n3 j m1 m2) (m3 n n1 n2)) m2 n2
  have hjn : j = n := by
    have : path j = path n := by
      unfold path
      rw [value_inj hs'.1, hs'.2]
    rw [this, ln] at lm
    cases lm
    rfl
  subst hjn
  exact ⟨⟨hs.1.trans hr.1.1.symm, hs.2.trans hr.1.2.symm⟩, hp.trans hr.2.symm⟩

/-- What an enumeration that ends without an error has returned. -/
theorem drained_exact {K : Type} {ctz0 : Nat} (h0 : 8 ≤ ctz0) {key1 key2 : Option K} {ops : List (WOp K)} {e : WEnv K}
    {w : Writer K} {f : Bytes} (h : Written ctz0 key1 key2 ops e w f) {db : Db} (ho : dbOpen f = .ok db) {flt : Filter} (hflt : FilterOk flt)
    {fuel : Nat} (hf : w.networks.networks.length < fuel) {found : List Network} {s : NetEnum}
    (hd : drain (nextNetwork db) fuel (enumNew flt) = .ok (found, true, s)) (m : Network) :
    m ∈ found ↔ ∃ n ∈ w.networks.networks, m = readBack n ∧ Block n ∧ Wanted flt m := by
  obtain ⟨db', ho', hh⟩ := written_holds h0 h
  rw [ho] at ho'
  cases ho'
  obtain ⟨recs, nets, junk, enc, hi⟩ := enumNew_inv hh flt
  have htc : toCome [⟨0, [], w.networks, 0⟩] = w.networks.networks := by simp [toCome]
  have hfound : found = (w.networks.networks.map readBack).filter (matchNetwork flt) := by
    rcases drain_sound enc flt fuel _ _ hi rfl rfl (by rw [htc]; exact hf) with ⟨-, h1⟩ | ⟨s, h1, -⟩ | ⟨s, pre, n, post, h1, -, -⟩
    · rw [h1] at hd; cases hd
    · rw [h1, htc] at hd; cases hd; rfl
    · rw [h1] at hd; cases hd
  rw [hfound, List.mem_filter, List.mem_map]
  constructor
  · rintro ⟨⟨n, hn, rfl⟩, hm⟩
    have hb := ((mem_networks_wf hh.wf).mp hn).1
    exact ⟨n, hn, rfl, hb, (matchNetwork_iff hflt (readBack_block hb) (readBack_countryOk (hh.country n hn))).mp hm⟩
  · rintro ⟨n, hn, rfl, hb, hm⟩
    exact ⟨⟨n, hn, rfl⟩, (matchNetwork_iff hflt (readBack_block hb) (readBack_countryOk (hh.country n hn))).mpr hm⟩

/-- C93: if an enumeration ends without an error, a network which a lookup returns is among the enumerated ones exactly if
    the filter asks for it.  Then it has the same country, AS number and flags there, and it is the smallest of the
    enumerated networks that contain the address. -/
theorem lookup_listed {K : Type} {ctz0 : Nat} (h0 : 8 ≤ ctz0) {key1 key2 : Option K} {ops : List (WOp K)} {e : WEnv K}
    {w : Writer K} {f : Bytes} (h : Written ctz0 key1 key2 ops e w f) {db : Db} (ho : dbOpen f = .ok db) {flt : Filter} (hflt : FilterOk flt)
    {fuel : Nat} (hf : w.networks.networks.length < fuel) {found : List Network} {s : NetEnum}
    (hd : drain (nextNetwork db) fuel (enumNew flt) = .ok (found, true, s)) {a : Addr} {m : Network}
    (hl : lookup db a = .ok (.ok (some m))) :
    ((∃ n ∈ found, SameBlock n m) ↔ Wanted flt m) ∧
    ∀ n ∈ found, SameBlock n m → props n = props m ∧ Contains n a ∧ ∀ n' ∈ found, Contains n' a → n'.pfx ≤ n.pfx := by
  have hex := drained_exact h0 h ho hflt hf hd
  obtain ⟨hb, hc, k, hk, hs, hp⟩ := lookup_sound h0 h ho hl
  have hpk : props m = props (readBack k) := hp.trans (readFrom_readBack k).2.symm
  have hsk : SameBlock m (readBack k) := hs
  obtain ⟨db', ho', hh⟩ := written_holds h0 h
  have hbk := ((mem_networks_wf hh.wf).mp hk.1).1
  have same : ∀ n ∈ found, SameBlock n m → props n = props m ∧ Contains n a ∧ ∀ n' ∈ found, Contains n' a → n'.pfx ≤ n.pfx := by
    intro n hn hnm
    obtain ⟨j, hj, rfl, hbj, -⟩ := (hex n).mp hn
    have hcj : Contains (readBack j) a := (contains_same (readBack_block hbj) hb hnm a).mpr hc
    have hjm : MostSpecific (· ∈ w.networks.networks) a j := by
      refine ⟨hj, hcj, fun x hx hxa => ?_⟩
      have h1 := hk.2.2 x hx hxa
      have h2 : j.pfx = m.pfx := hnm.2
      have h3 : m.pfx = k.pfx := hs.2
      omega
    refine ⟨(lookup_most_specific h0 h ho hl hjm (readFrom_readBack j)).2.symm, hcj, fun n' hn' hca => ?_⟩
    obtain ⟨x, hx, rfl, -, -⟩ := (hex n').mp hn'
    exact hjm.2.2 x hx hca
  refine ⟨⟨?_, ?_⟩, same⟩
  · rintro ⟨n, hn, hnm⟩
    obtain ⟨_, _, _, _, hw⟩ := (hex n).mp hn
    exact (wanted_congr hnm (same n hn hnm).1).mp hw
  · intro hw
    exact ⟨readBack k, (hex _).mpr ⟨k, hk.1, rfl, hbk, (wanted_congr hsk hpk).mp hw⟩, hsk.1.symm, hsk.2.symm⟩

/-- C93: a flattened enumeration of any database that can be enumerated (C16, C19): if it ends without an error, an address
    for which a lookup returns a network is in one of its networks exactly if the filter asks for what was looked up.  Also if
    it ends with an error, every one of its networks that contains the address has the country, AS number and flags of what
    was looked up. -/
theorem lookup_flattened {K : Type} {ctz0 : Nat} (h0 : 8 ≤ ctz0) {key1 key2 : Option K} {ops : List (WOp K)} {e : WEnv K}
    {w : Writer K} {f : Bytes} (h : Written ctz0 key1 key2 ops e w f) {db : Db} (ho : dbOpen f = .ok db)
    (hd : ¬ TooDeep (· ∈ w.networks.networks)) (hv : ∀ n ∈ w.networks.networks, ¬ AroundV4 n) {flt : Filter} (hflt : FilterOk flt) :
    ∃ R ended s steps, (∀ f0 fuel, steps ≤ f0 → steps ≤ fuel → drain (nextNetworkFlat db f0) fuel (enumNew flt) = .ok (R, ended, s)) ∧
      ∀ a m, lookup db a = .ok (.ok (some m)) →
        (∀ n ∈ R, Contains n a → props n = props m ∧ Wanted flt m) ∧ (ended = true → Wanted flt m → ∃ n ∈ R, Contains n a) := by
  obtain ⟨R, b, s, steps, r1, -, -, -, r5, r6, -⟩ := flattened_sound h0 h ho hd hv hflt
  refine ⟨R, b, s, steps, r1, fun a m hl => ⟨fun n hn hc => ?_, fun hb hw => ?_⟩⟩
  · obtain ⟨j, k, h1, h2, h3, h4⟩ := r5 n hn a hc
    obtain ⟨h5, h6⟩ := lookup_most_specific h0 h ho hl h1 h2
    exact ⟨h4.symm.trans h6.symm, (wanted_congr h5 h6).mpr h3⟩
  · obtain ⟨-, -, j, hj, -, -⟩ := lookup_sound h0 h ho hl
    obtain ⟨h5, h6⟩ := lookup_most_specific h0 h ho hl hj (readFrom_readBack j)
    obtain ⟨n, hn, hc, -⟩ := (r6 hb).2 a j _ hj (readFrom_readBack j) ((wanted_congr h5 h6).mp hw)
    exact ⟨n, hn, hc⟩

/-- C93: if the bogons can be enumerated and every maximal gap is a range whose summary is exact (C29), a lookup of an address
    in a bogon returns no network with a country. -/
theorem lookup_bogon_partial {K : Type} {ctz0 : Nat} (h0 : 8 ≤ ctz0) {key1 key2 : Option K} {ops : List (WOp K)} {e : WEnv K}
    {w : Writer K} {f : Bytes} (h : Written ctz0 key1 key2 ops e w f) {db : Db} (ho : dbOpen f = .ok db)
    (hd : ¬ TooDeep (· ∈ w.networks.networks)) (hv : ∀ n ∈ w.networks.networks, ¬ AroundV4 n) :
    ∃ found steps, (∀ fuel, steps ≤ fuel → ∃ s, drain (nextNetwork db) fuel (enumNew noFilter) = .ok (found, true, s)) ∧
      (BogonsOk (withCountry found) → (∀ lo hi, MaximalGap (withCountry found) lo hi → ExactRange lo hi) → ∃ R s' steps',
        (∀ f0 fuel, steps' ≤ f0 → steps' ≤ fuel → drain (nextBogon db f0) fuel (enumNew noFilter) = .ok (R, true, s')) ∧
        ∀ a m, CoveredInFamily R a → lookup db a = .ok (.ok (some m)) → ¬ HasCountry m) := by
  obtain ⟨found, steps, h1, h2⟩ := bogon_exact_partial h0 h ho hd hv noFilter
  refine ⟨found, steps, h1, fun hok hgap => ?_⟩
  obtain ⟨R, s', steps', r1, -, -, r4⟩ := h2 hok
  refine ⟨R, s', steps', r1, fun a m ha hl hcm => ?_⟩
  obtain ⟨s, hs⟩ := h1 (steps + w.networks.networks.length + 1) (by omega)
  obtain ⟨l1, l2⟩ := lookup_listed h0 h ho (flt := noFilter) (by intro l hl; cases hl) (by omega) hs hl
  obtain ⟨n, hn, hnm⟩ := l1.mpr (wanted_noFilter m)
  obtain ⟨hp, hc, -⟩ := l2 n hn hnm
  refine ((r4 hgap a).mp ha).2 ⟨n, ?_, hc⟩
  unfold withCountry
  rw [List.mem_filter]
  refine ⟨hn, decide_eq_true ?_⟩
  unfold HasCountry at hcm ⊢
  rwa [hp]

/-- In the sample database 10.1.2.3 is found. -/
theorem demo_found {w : Writer Unit} {f : Bytes} {db : Db} (h1 : Written 32 none none demoOps demoEnv w f) (h2 : dbOpen f = .ok db)
    (h3 : w.networks.networks = [net10_8, net10_1_16]) : ∃ m, lookup db (ip4 10 1 2 3) = .ok (.ok (some m)) ∧ SameBlock m net10_1_16 := by
  have h4 : LongestPrefixMatch (· ∈ w.networks.networks) db (ip4 10 1 2 3) := by
    apply lookup_longest_prefix_partial (by decide) h1 h2
    · rw [h3]; decide +kernel
    · rw [h3]
      have key : ∀ k ∈ [net10_8, net10_1_16], (∀ m ∈ [net10_8, net10_1_16], Contains m (ip4 10 1 2 3) → m.pfx ≤ k.pfx) →
          ¬ (k.pfx = 95 ∧ IsV4 (ip4 10 1 2 3)) ∧ ∀ m ∈ [net10_8, net10_1_16], k.pfx < m.pfx →
            ¬ value m.first / 2 ^ (128 - (k.pfx + 1)) = value (ip4 10 1 2 3) / 2 ^ (128 - (k.pfx + 1)) := by
        decide +kernel
      rintro k ⟨k1, k2, k3⟩
      exact key k k1 k3
  obtain ⟨r, r1, r2, -⟩ := h4
  have key : ∀ m ∈ [net10_8, net10_1_16], Contains m (ip4 10 1 2 3) → m.pfx ≤ net10_1_16.pfx := by decide +kernel
  obtain ⟨m, rfl, hm⟩ := r2 net10_1_16 (by rw [h3]; exact ⟨by decide +kernel, by decide +kernel, key⟩)
  exact ⟨m, r1, hm⟩

/-- The sample database (10.1.0.0/16 inside 10.0.0.0/8) meets the hypotheses: the network found for 10.1.2.3 is listed. -/
example : ∃ w f db m, Written 32 none none demoOps demoEnv w f ∧ dbOpen f = .ok db ∧ lookup db (ip4 10 1 2 3) = .ok (.ok (some m)) ∧
    ¬ TooDeep (· ∈ w.networks.networks) ∧ (∀ n ∈ w.networks.networks, ¬ AroundV4 n) ∧
    ∃ found s, drain (nextNetwork db) 3 (enumNew noFilter) = .ok (found, true, s) ∧ ∃ n ∈ found, SameBlock n m ∧ props n = props m := by
  obtain ⟨w, f, db, h1, h2, h3, h4, h5⟩ := demo_plain
  obtain ⟨m, hm, -⟩ := demo_found h1 h2 h3
  refine ⟨w, f, db, m, h1, h2, hm, h4, h5, ?_⟩
  have hno : FilterOk noFilter := by intro l hl; cases hl
  have hlen : w.networks.networks.length < 3 := by rw [h3]; decide
  rcases network_enumeration_sound (by decide) h1 h2 hno hlen with ⟨hd, -⟩ | ⟨found, ended, s, hd, seen, rest, l, e1, -, -, -, -, -, e2⟩
  · exact absurd hd h4
  · cases ended with
    | false =>
      obtain ⟨n, hn, ha⟩ := e2 rfl
      exact absurd ha (h5 n (by rw [e1]; exact List.mem_append_right _ (List.mem_of_mem_head? hn)))
    | true =>
      obtain ⟨l1, l2⟩ := lookup_listed (by decide) h1 h2 hno hlen hd hm
      obtain ⟨n, hn, hs⟩ := l1.mpr (wanted_noFilter m)
      exact ⟨found, s, hd, n, hn, hs, (l2 n hn hs).1⟩

/-- A database with 64.0.0.0/2 meets the hypotheses for bogons, which are in the other quarters. -/
example : ∃ w f db, Written 32 none none [.addNetwork net64_2] demoEnv w f ∧ dbOpen f = .ok db ∧
    ¬ TooDeep (· ∈ w.networks.networks) ∧ (∀ n ∈ w.networks.networks, ¬ AroundV4 n) ∧ ∃ R s steps,
    (∀ f0 fuel, steps ≤ f0 → steps ≤ fuel → drain (nextBogon db f0) fuel (enumNew noFilter) = .ok (R, true, s)) ∧
    ∀ a m, CoveredInFamily R a → lookup db a = .ok (.ok (some m)) → ¬ HasCountry m := by
  obtain ⟨w, f, db, h1, h2, h3, h4, h5⟩ := bogon_file (ops := [.addNetwork net64_2]) (l := [net64_2])
    (by intro op h; rw [List.mem_singleton] at h; subst h; exact de4_built (by decide +kernel))
    (by decide) (by decide +kernel) (by decide +kernel) (by decide) (by unfold AroundV4; decide +kernel)
  obtain ⟨found, steps, k1, -, k2, -⟩ := bogon_written (by decide) h1 h2 h4 h5 noFilter
  rw [h3] at k2
  have k4 : withCountry found = [net64_2] := by rw [k2]; decide +kernel
  obtain ⟨found', steps', m1, m2⟩ := lookup_bogon_partial (by decide) h1 h2 h4 h5
  have hff : found' = found := by
    obtain ⟨s1, e1⟩ := k1 (steps + steps') (by omega)
    obtain ⟨s2, e2⟩ := m1 (steps + steps') (by omega)
    rw [e1] at e2
    simp only [Except.ok.injEq, Prod.mk.injEq] at e2
    exact e2.1.symm
  rw [hff, k4] at m2
  exact ⟨w, f, db, h1, h2, h4, h5, m2 net64_ok.1 net64_ok.2⟩

/-! ## Violations -/

/-- A lookup and a flattened enumeration disagree: in the sample database 10.0.0.1 is enumerated with the country, AS number
    and flags of 10.0.0.0/8, and the lookup of 10.0.0.1 returns nothing. -/
theorem lookup_flattened_violated : ∃ w f db, Written 32 none none demoOps demoEnv w f ∧ dbOpen f = .ok db ∧
    lookup db (ip4 10 0 0 1) = .ok (.ok none) ∧ ∃ R s steps,
    (∀ f0 fuel, steps ≤ f0 → steps ≤ fuel → drain (nextNetworkFlat db f0) fuel (enumNew noFilter) = .ok (R, true, s)) ∧
    ∃ m ∈ R, Contains m (ip4 10 0 0 1) ∧ props m = props net10_8 := by
  obtain ⟨w, f, db, h1, h2, h3, h4, h5⟩ := demo_plain
  have hms : MostSpecific (· ∈ [net10_8, net10_1_16]) (ip4 10 0 0 1) net10_8 := by
    have key : ∀ m ∈ [net10_8, net10_1_16], Contains m (ip4 10 0 0 1) → m.pfx ≤ net10_8.pfx := by decide +kernel
    exact ⟨by decide +kernel, by decide +kernel, key⟩
  have hodd : ∀ m ∈ [net10_8, net10_1_16], ∀ n ∈ [net10_8, net10_1_16], ¬ CutsOddBlock n m := by decide +kernel
  obtain ⟨R, s, steps, r1, -, -, -, -, r6⟩ := flattened_partition_partial (by decide) h1 h2 h4 h5
    (fun m hm n hn _ => hodd m (h3 ▸ hm) n (h3 ▸ hn)) (flt := noFilter) (by intro l hl; cases hl)
  rw [h3] at r6
  refine ⟨w, f, db, h1, h2, ?_, R, s, steps, r1,
    (r6 _ _).mpr ⟨net10_8, readBack net10_8, hms, readFrom_readBack _, wanted_noFilter _, by decide +kernel⟩⟩
  refine lookup_misses (by decide) h1 h2 (k := net10_8) (m := net10_1_16) ?_ ?_ ?_ (by decide) (by unfold AgreeOn; decide +kernel)
  · rw [h3]; decide +kernel
  · rw [h3]; exact hms
  · rw [h3]; decide +kernel

/-- A lookup and a bogon enumeration disagree: in a database with only 10.0.0.0/8 (DE), 10.0.0.1 is found in DE, and it is
    in a bogon. -/
theorem lookup_bogon_violated : ∃ w f db m, Written 32 none none [.addNetwork net10de] demoEnv w f ∧ dbOpen f = .ok db ∧
    lookup db (ip4 10 0 0 1) = .ok (.ok (some m)) ∧ (props m).1 = [68, 69] ∧ ∃ R s steps,
    (∀ f0 fuel, steps ≤ f0 → steps ≤ fuel → drain (nextBogon db f0) fuel (enumNew noFilter) = .ok (R, true, s)) ∧
    CoveredInFamily R (ip4 10 0 0 1) := by
  obtain ⟨w, f, db, h1, h2, h3, hR⟩ := bogons_violated_overlap
  have h4 : LongestPrefixMatch (· ∈ w.networks.networks) db (ip4 10 0 0 1) := by
    apply lookup_longest_prefix_partial (by decide) h1 h2
    · rw [h3]; decide +kernel
    · rw [h3]
      have key : ∀ k ∈ [net10de], ¬ (k.pfx = 95 ∧ IsV4 (ip4 10 0 0 1)) ∧ ∀ m ∈ [net10de], k.pfx < m.pfx →
            ¬ value m.first / 2 ^ (128 - (k.pfx + 1)) = value (ip4 10 0 0 1) / 2 ^ (128 - (k.pfx + 1)) := by
        decide +kernel
      rintro k ⟨k1, k2, k3⟩
      exact key k k1
  obtain ⟨r, r1, r2, -⟩ := h4
  have hms : MostSpecific (· ∈ w.networks.networks) (ip4 10 0 0 1) net10de := by
    rw [h3]
    have key : ∀ m ∈ [net10de], Contains m (ip4 10 0 0 1) → m.pfx ≤ net10de.pfx := by decide +kernel
    exact ⟨by decide +kernel, by decide +kernel, key⟩
  obtain ⟨m, rfl, -⟩ := r2 net10de hms
  refine ⟨w, f, db, m, h1, h2, r1, ?_, hR⟩
  rw [(lookup_most_specific (by decide) h1 h2 r1 hms (readFrom_readBack net10de)).2]
  decide +kernel

end Loc.Props
