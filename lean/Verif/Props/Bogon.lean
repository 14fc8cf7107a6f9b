import Verif.Lemmas.BogonExact
import Verif.Props.Flatten
/-
C29: bogon enumerations.
-/
namespace Loc.Props
open Loc Loc.Spec

theorem sel_eq (f : Filter) (l : List Network) : sel f l = withCountry (l.filter (matchNetwork f)) := by
  unfold sel withCountry
  rw [List.filter_filter]
  congr 1
  funext n
  rw [Bool.and_comm]
  congr 1
  have hc : HasCountry n ↔ ¬ countryCode n = [] := Iff.rfl
  by_cases h : countryCode n = [] <;> simp [h, hc]

/-- The bogons and the network enumeration with the same filter. -/
theorem bogon_written {K : Type} {ctz0 : Nat} (h0 : 8 ≤ ctz0) {key1 key2 : Option K} {ops : List (WOp K)} {e : WEnv K}
    {w : Writer K} {f : Bytes} (h : Written ctz0 key1 key2 ops e w f) {db : Db} (ho : dbOpen f = .ok db)
    (hd : ¬ TooDeep (· ∈ w.networks.networks)) (hv : ∀ n ∈ w.networks.networks, ¬ AroundV4 n) (flt : Filter) :
    ∃ found steps, (∀ fuel, steps ≤ fuel → ∃ s, drain (nextNetwork db) fuel (enumNew flt) = .ok (found, true, s)) ∧ BSet (withCountry found) ∧
      found = (w.networks.networks.map readBack).filter (matchNetwork flt) ∧
      ∀ R b, bogL (withCountry found) (addrReset .inet6) (addrReset .inet) = .ok (R, b) →
        ∃ s' steps', ∀ f0 fuel, steps' ≤ f0 → steps' ≤ fuel → drain (nextBogon db f0) fuel (enumNew flt) = .ok (R, b, s') := by
  obtain ⟨g1, g2, g3⟩ := flat_written h0 h ho hd hv flt
  refine ⟨_, (w.networks.networks.map readBack).length + 1, ?_, ?_, rfl, ?_⟩
  · intro fuel hf
    obtain ⟨s, hs, -⟩ := drain_enumAt flt fuel _ _ g1 rfl (by omega)
    exact ⟨s, hs⟩
  · have hsub : (withCountry ((w.networks.networks.map readBack).filter (matchNetwork flt))).Sublist (w.networks.networks.map readBack) :=
      (List.filter_sublist).trans List.filter_sublist
    refine ⟨g2.sublist hsub, ?_, ?_⟩
    · intro n hn
      obtain ⟨n, hn', rfl⟩ := List.mem_map.mp (hsub.subset hn)
      exact readBack_block (g3 n hn').1
    · intro n hn
      obtain ⟨n, hn', rfl⟩ := List.mem_map.mp (hsub.subset hn)
      exact hv n hn'
  · intro R b hb
    rw [← sel_eq] at hb
    obtain ⟨K, e', k⟩ := bogon_sim _ _ (enumNew flt) R b (Nat.le_refl _) g1 rfl hb
    exact ⟨e', K, k⟩

/-- C29: a bogon enumeration ends after finitely many calls, with or without an error, and the bogons are CIDR blocks.
    If it ends without an error, then every address that belongs to no enumerated network with a country (of its family) is
    covered by a bogon, provided that the family of the address has an enumerated network with a country (other than the
    single first address), and no network ends just below the IPv4 range.  The networks are those which the network
    enumeration with the same filter returns.  Missing: the cases where the enumeration fails (see `BogonsOk` in
    `bogon_exact_partial`, and `bogons_violated_error`), families without any network with a country
    (`bogons_violated_family`), and the databases which cannot be enumerated at all (C16, C19). -/
theorem bogon_complete_partial {K : Type} {ctz0 : Nat} (h0 : 8 ≤ ctz0) {key1 key2 : Option K} {ops : List (WOp K)} {e : WEnv K}
    {w : Writer K} {f : Bytes} (h : Written ctz0 key1 key2 ops e w f) {db : Db} (ho : dbOpen f = .ok db)
    (hd : ¬ TooDeep (· ∈ w.networks.networks)) (hv : ∀ n ∈ w.networks.networks, ¬ AroundV4 n) (flt : Filter) :
    ∃ found R b s' steps, (∀ fuel, steps ≤ fuel → ∃ s, drain (nextNetwork db) fuel (enumNew flt) = .ok (found, true, s)) ∧
      (∀ f0 fuel, steps ≤ f0 → steps ≤ fuel → drain (nextBogon db f0) fuel (enumNew flt) = .ok (R, b, s')) ∧
      (∀ n ∈ R, Block n) ∧
      (b = true → (∀ n ∈ withCountry found, value n.last ≠ 0xfffeffffffff) → ∀ x,
        (∃ n ∈ withCountry found, (IsV4 n.first ↔ IsV4 x) ∧ familyFirst x < value n.last) → ¬ CoveredInFamily (withCountry found) x → CoveredInFamily R x) := by
  obtain ⟨found, steps, h1, hC, -, h3⟩ := bogon_written h0 h ho hd hv flt
  obtain ⟨R, b, h4, h5⟩ := bogL_total (withCountry found) (addrReset .inet6) (addrReset .inet)
  obtain ⟨s', steps', h6⟩ := h3 R b h4
  refine ⟨found, R, b, s', steps + steps', fun fuel hf => h1 fuel (by omega), fun f0 fuel hf0 hf => h6 f0 fuel (by omega) (by omega), h5, ?_⟩
  rintro rfl hgap x ⟨n, hn, hfam, hlt⟩ hnc
  rw [← coversF_iff h5]
  rw [← coversF_iff hC.blk] at hnc
  refine bog_complete hC hgap rfl hnc ⟨n, hn, ?_, ?_⟩ _ [] _ _ R rfl finv_init h4 ?_
  · rw [← first_fam (hC.blk n hn)]
    exact family_iff.mpr hfam
  · rwa [show familyFirst x = famMin x from rfl, famMin_eq rfl] at hlt
  · have : ∀ G, value (gapOf (addrReset .inet6) (addrReset .inet) G) = minF G := by intro G; cases G <;> decide
    rw [this]
    exact (fam_range rfl).1

/-- C29: if `BogonsOk` holds for the networks with a country that are enumerated, the bogon enumeration succeeds, every
    address of a family with such networks is covered by a bogon unless it belongs to one of them; and if every maximal gap
    is a range whose summary is exact, the bogons cover exactly these addresses. -/
theorem bogon_exact_partial {K : Type} {ctz0 : Nat} (h0 : 8 ≤ ctz0) {key1 key2 : Option K} {ops : List (WOp K)} {e : WEnv K}
    {w : Writer K} {f : Bytes} (h : Written ctz0 key1 key2 ops e w f) {db : Db} (ho : dbOpen f = .ok db)
    (hd : ¬ TooDeep (· ∈ w.networks.networks)) (hv : ∀ n ∈ w.networks.networks, ¬ AroundV4 n) (flt : Filter) :
    ∃ found steps, (∀ fuel, steps ≤ fuel → ∃ s, drain (nextNetwork db) fuel (enumNew flt) = .ok (found, true, s)) ∧
      (BogonsOk (withCountry found) → ∃ R s' steps',
        (∀ f0 fuel, steps' ≤ f0 → steps' ≤ fuel → drain (nextBogon db f0) fuel (enumNew flt) = .ok (R, true, s')) ∧ (∀ n ∈ R, Block n) ∧
        (∀ x, (∃ n ∈ withCountry found, (IsV4 n.first ↔ IsV4 x)) → ¬ Covers (withCountry found) x → CoveredInFamily R x) ∧
        ((∀ lo hi, MaximalGap (withCountry found) lo hi → ExactRange lo hi) →
          ∀ x, CoveredInFamily R x ↔ (∃ n ∈ withCountry found, (IsV4 n.first ↔ IsV4 x)) ∧ ¬ Covers (withCountry found) x)) := by
  obtain ⟨found, steps, h1, hC, -, h3⟩ := bogon_written h0 h ho hd hv flt
  refine ⟨found, steps, h1, fun hok => ?_⟩
  obtain ⟨R, h4, h5, h6⟩ := bog_exact hC hok _ [] _ _ rfl finv_init (by intro G d hd; cases hd)
  obtain ⟨s', steps', h7⟩ := h3 R true h4
  have hfam : ∀ n ∈ withCountry found, ∀ x, (n.family = addrFamily x ↔ (IsV4 n.first ↔ IsV4 x)) := by
    intro n hn x
    rw [← first_fam (hC.blk n hn)]
    exact family_iff
  have hcomp : ∀ x, (∃ n ∈ withCountry found, (IsV4 n.first ↔ IsV4 x)) → ¬ Covers (withCountry found) x → CoveredInFamily R x := by
    rintro x ⟨n, hn, hf⟩ hnc
    rw [← coversF_iff h5]
    have hnf := (hfam n hn x).mpr hf
    have hbn := hC.blk n hn
    refine bog_complete hC (fun n hn => (hok.away n hn).2.2) rfl (fun ⟨m, hm, _, hc⟩ => hnc ⟨m, hm, hc⟩) ⟨n, hn, hnf, ?_⟩ _ [] _ _ R rfl finv_init h4 ?_
    · have h8 := (hok.inner n hn).1
      have h9 := first_fam hbn
      rw [show familyFirst n.first = famMin n.first from rfl, famMin_eq h9, hnf] at h8
      have h10 := (fam_range h9).1
      rw [hnf] at h10
      have := hbn.last_eq
      omega
    · have : ∀ G, value (gapOf (addrReset .inet6) (addrReset .inet) G) = minF G := by intro G; cases G <;> decide
      rw [this]
      exact (fam_range rfl).1
  refine ⟨R, s', steps', h7, h5, hcomp, fun hex x => ⟨fun hc => ?_, fun ⟨h8, h9⟩ => hcomp x h8 h9⟩⟩
  obtain ⟨-, h8, n, hn, h9⟩ := h6 hex _ x rfl ((coversF_iff h5 x).mpr hc)
  exact ⟨⟨n, hn, (hfam n hn x).mp h9⟩, h8⟩

/-! ## Examples and violations -/

/-- A file with the given networks. -/
theorem bogon_file {ops : List (WOp Unit)} {l : List Network} (hok : ∀ op ∈ ops, OpOk 32 op) (hnw : ∀ op ∈ ops, IsWrite op = false)
    (h : ((outcome demoEnv ops).map (·.1)).any (· < 2 ^ 32) = true) (hl : storedOf ops = some l) (hp : ∀ n ∈ l, n.pfx < 128) (ha : ∀ n ∈ l, ¬ AroundV4 n) :
    ∃ w f db, Written 32 none none ops demoEnv w f ∧ dbOpen f = .ok db ∧ w.networks.networks = l ∧
      ¬ TooDeep (· ∈ w.networks.networks) ∧ ∀ n ∈ w.networks.networks, ¬ AroundV4 n := by
  obtain ⟨w, f, db, h1, h2, h3⟩ := example_file hok hnw h hl
  refine ⟨w, f, db, h1, h2, h3, ?_, by rw [h3]; exact ha⟩
  rw [h3]
  intro hd
  obtain ⟨n, hn, hh, -⟩ := tooDeep_host (S := (· ∈ l)) (fun n hn => Nat.le_of_lt (hp n hn)) hd
  have := hp n hn
  unfold IsHost at hh
  omega

/-- An IPv4 network in DE -/
def de4 (first last : Addr) (p : Nat) : Network := { mk4 first last p with cc0 := 68, cc1 := 69 }

theorem de4_built {first last : Addr} {p : Nat} (h : newNetwork first p = .ok (mk4 first last p)) : Built 32 (de4 first last p) :=
  .country (n := mk4 first last p) (cc := some [68, 69]) (.new h) rfl

/-- 64.0.0.0/2 -/
def net64_2 : Network := de4 (ip4 64 0 0 0) (ip4 127 255 255 255) 2

theorem net64_gaps {lo hi : Addr} (h : MaximalGap [net64_2] lo hi) :
    (IsV4 lo ∧ value lo = 0xffff00000000 ∧ value hi = 0xffff3fffffff) ∨ (IsV4 lo ∧ value lo = 0xffff80000000 ∧ value hi = 0xffffffffffff) ∨
    (¬ IsV4 lo ∧ value lo = 0 ∧ value hi = 2 ^ 128 - 1) := by
  have hf : value net64_2.first = 0xffff40000000 := by decide +kernel
  have hl : value net64_2.last = 0xffff7fffffff := by decide +kernel
  have hv : IsV4 net64_2.first := by decide +kernel
  have hc : ∀ y, Covers [net64_2] y ↔ 0xffff40000000 ≤ value y ∧ value y ≤ 0xffff7fffffff := by
    intro y
    unfold Covers Contains
    simp only [List.mem_singleton, exists_eq_left, hf, hl]
  obtain ⟨h1, h2, h3, h4, h5⟩ := h
  simp only [hc] at h3 h4 h5
  have a1 := h3 lo Iff.rfl (Nat.le_refl _) h2
  have a2 := h3 hi h1.symm h2 (Nat.le_refl _)
  have a3 := h3 net64_2.first
  rw [hf] at a3
  simp only [hv, true_iff] at a3
  unfold familyFirst at h4
  unfold familyLast at h5
  have hlo := value_lt lo
  have hhi := value_lt hi
  by_cases h6 : IsV4 lo
  · have h7 := h1.mp h6
    rw [if_pos h6] at h4
    rw [if_pos h7] at h5
    have a4 := a3 h6
    simp only [h6, iff_true] at h4
    simp only [h7, iff_true] at h5
    unfold IsV4 at h6 h7
    simp only [Nat.reducePow] at h6 h7
    rcases h4 with h4 | ⟨y, y1, y2, y3⟩ <;> rcases h5 with h5 | ⟨z, z1, z2, z3⟩
    · exact absurd ⟨by omega, by omega⟩ (a4 (by omega) (by omega))
    · exact .inl ⟨by unfold IsV4; simp only [Nat.reducePow]; omega, by omega, by omega⟩
    · exact .inr (.inl ⟨by unfold IsV4; simp only [Nat.reducePow]; omega, by omega, by omega⟩)
    · exfalso
      omega
  · have h7 : ¬ IsV4 hi := fun h => h6 (h1.mpr h)
    rw [if_neg h6] at h4
    rw [if_neg h7] at h5
    have hno : ∀ y : Addr, ¬ IsV4 y → ¬ (0xffff40000000 ≤ value y ∧ value y ≤ 0xffff7fffffff) := by
      intro y hy
      unfold IsV4 at hy
      simp only [Nat.reducePow] at hy
      omega
    refine .inr (.inr ⟨h6, ?_, ?_⟩)
    · rcases h4 with h4 | ⟨y, y1, y2, y3⟩
      · exact h4
      · exact absurd y2 (hno y (fun h => h6 (y1.mp h)))
    · rcases h5 with h5 | ⟨z, z1, z2, z3⟩
      · exact h5
      · exact absurd z2 (hno z (fun h => h7 (z1.mp h)))

/-- The hypotheses of `bogon_exact_partial` hold for 64.0.0.0/2: the gaps are 0.0.0.0/2 and 128.0.0.0/1. -/
theorem net64_ok : BogonsOk [net64_2] ∧ ∀ lo hi, MaximalGap [net64_2] lo hi → ExactRange lo hi := by
  refine ⟨⟨?_, ?_, ?_, ?_⟩, ?_⟩
  · decide +kernel
  · decide +kernel
  · intro lo hi h
    rcases net64_gaps h with ⟨-, h1, h2⟩ | ⟨-, h1, h2⟩ | ⟨-, h1, h2⟩ <;> rw [h1, h2] <;> decide
  · intro n hn hh
    rw [List.mem_singleton] at hn
    subst hn
    exact absurd hh (by unfold IsHost; decide)
  · intro lo hi h
    unfold ExactRange AcrossMiddle familyMiddle familyFirst
    rcases net64_gaps h with ⟨h0, h1, h2⟩ | ⟨h0, h1, h2⟩ | ⟨h0, h1, h2⟩
    · left
      rw [if_pos h0, h1, h2]
      exact ⟨by decide, mk4 (ip4 0 0 0 0) (ip4 63 255 255 255) 2, by decide +kernel, by decide +kernel, by decide +kernel⟩
    · left
      rw [if_pos h0, h1, h2]
      exact ⟨by decide, mk4 (ip4 128 0 0 0) (ip4 255 255 255 255) 1, by decide +kernel, by decide +kernel, by decide +kernel⟩
    · right
      rw [if_neg h0, if_neg h0, h1, h2]
      exact ⟨by decide, rfl, ⟨.inet6, #v[0x80,0,0,0, 0,0,0,0, 0,0,0,0, 0,0,0,0], addrResetLast .inet6, 1, 0, 0, 0, 0⟩, by decide +kernel, by decide +kernel, by decide +kernel⟩

/-- In a database with 64.0.0.0/2 in DE, 9.9.9.9 is a bogon and 65.0.0.1 is not. -/
example : ∃ w f db, Written 32 none none [.addNetwork net64_2] demoEnv w f ∧ dbOpen f = .ok db ∧ ∃ R s steps,
    (∀ f0 fuel, steps ≤ f0 → steps ≤ fuel → drain (nextBogon db f0) fuel (enumNew noFilter) = .ok (R, true, s)) ∧
    CoveredInFamily R (ip4 9 9 9 9) ∧ ¬ CoveredInFamily R (ip4 65 0 0 1) := by
  obtain ⟨w, f, db, h1, h2, h3, h4, h5⟩ := bogon_file (ops := [.addNetwork net64_2]) (l := [net64_2])
    (by intro op h; rw [List.mem_singleton] at h; subst h; exact de4_built (by decide +kernel))
    (by decide) (by decide +kernel) (by decide +kernel) (by decide) (by unfold AroundV4; decide +kernel)
  obtain ⟨found, steps, k1, hC, k2, k3⟩ := bogon_written (by decide) h1 h2 h4 h5 noFilter
  rw [h3] at k2
  have k4 : withCountry found = [net64_2] := by rw [k2]; decide +kernel
  obtain ⟨found', steps', m1, m2⟩ := bogon_exact_partial (by decide) h1 h2 h4 h5 noFilter
  have hff : found' = found := by
    obtain ⟨s1, e1⟩ := k1 (steps + steps') (by omega)
    obtain ⟨s2, e2⟩ := m1 (steps + steps') (by omega)
    rw [e1] at e2
    simp only [Except.ok.injEq, Prod.mk.injEq] at e2
    exact e2.1.symm
  rw [hff, k4] at m2
  obtain ⟨R, s, st, r1, -, -, r4⟩ := m2 net64_ok.1
  refine ⟨w, f, db, h1, h2, R, s, st, r1, ?_, ?_⟩
  · rw [r4 net64_ok.2]
    refine ⟨⟨_, List.mem_singleton_self _, by decide +kernel⟩, ?_⟩
    rintro ⟨n, hn, hc⟩
    rw [List.mem_singleton] at hn
    subst hn
    revert hc
    unfold Contains
    decide +kernel
  · rw [r4 net64_ok.2]
    rintro ⟨-, h⟩
    refine h ⟨_, List.mem_singleton_self _, ?_⟩
    unfold Contains
    decide +kernel

/-- 10.0.0.0/8 in DE -/
def net10de : Network := de4 (ip4 10 0 0 0) (ip4 10 255 255 255) 8

/-- C29 violated: in a database with only 10.0.0.0/8 (DE) the bogon enumeration succeeds and returns a network that
    contains 10.0.0.1. -/
theorem bogons_violated_overlap : ∃ w f db, Written 32 none none [.addNetwork net10de] demoEnv w f ∧ dbOpen f = .ok db ∧
    w.networks.networks = [net10de] ∧ ∃ R s steps,
    (∀ f0 fuel, steps ≤ f0 → steps ≤ fuel → drain (nextBogon db f0) fuel (enumNew noFilter) = .ok (R, true, s)) ∧
    CoveredInFamily R (ip4 10 0 0 1) := by
  obtain ⟨w, f, db, h1, h2, h3, h4, h5⟩ := bogon_file (ops := [.addNetwork net10de]) (l := [net10de])
    (by intro op h; rw [List.mem_singleton] at h; subst h; exact de4_built (by decide +kernel))
    (by decide) (by decide +kernel) (by decide +kernel) (by decide) (by unfold AroundV4; decide +kernel)
  obtain ⟨found, steps, k1, hC, k2, k3⟩ := bogon_written (by decide) h1 h2 h4 h5 noFilter
  rw [h3] at k2
  obtain ⟨s, st, r⟩ := k3 [mk4 (ip4 0 0 0 0) (ip4 15 255 255 255) 4, mk4 (ip4 0 0 0 0) (ip4 127 255 255 255) 1, mk4 (ip4 128 0 0 0) (ip4 255 255 255 255) 1] true
    (by rw [k2]; decide +kernel)
  refine ⟨w, f, db, h1, h2, h3, _, s, st, r, _, List.mem_cons_self, by decide +kernel, ?_⟩
  unfold Contains
  decide +kernel

/-- 0.0.0.0/8 in DE -/
def net0de : Network := de4 (ip4 0 0 0 0) (ip4 0 255 255 255) 8

/-- C29 violated: in a database with only 0.0.0.0/8 (DE) the first call fails. -/
theorem bogons_violated_error : ∃ w f db, Written 32 none none [.addNetwork net0de] demoEnv w f ∧ dbOpen f = .ok db ∧
    w.networks.networks = [net0de] ∧ ∃ s steps,
    (∀ f0 fuel, steps ≤ f0 → steps ≤ fuel → drain (nextBogon db f0) fuel (enumNew noFilter) = .ok ([], false, s)) := by
  obtain ⟨w, f, db, h1, h2, h3, h4, h5⟩ := bogon_file (ops := [.addNetwork net0de]) (l := [net0de])
    (by intro op h; rw [List.mem_singleton] at h; subst h; exact de4_built (by decide +kernel))
    (by decide) (by decide +kernel) (by decide +kernel) (by decide) (by unfold AroundV4; decide +kernel)
  obtain ⟨found, steps, k1, hC, k2, k3⟩ := bogon_written (by decide) h1 h2 h4 h5 noFilter
  rw [h3] at k2
  obtain ⟨s, st, r⟩ := k3 [] false (by rw [k2]; decide +kernel)
  exact ⟨w, f, db, h1, h2, h3, s, st, r⟩

/-- C29 violated: an IPv6 network that ends just below the IPv4 range, ::fffe:0:0/96 in DE, hides the IPv6 gap behind it:
    the enumeration succeeds, and 2001:: is neither stored nor covered by a bogon. -/
def netfffe : Network := ⟨.inet6, #v[0,0,0,0, 0,0,0,0, 0,0,0xff,0xfe, 0,0,0,0], #v[0,0,0,0, 0,0,0,0, 0,0,0xff,0xfe, 0xff,0xff,0xff,0xff], 96, 68, 69, 0, 0⟩

def ip2001 : Addr := #v[0x20,0x01,0,0, 0,0,0,0, 0,0,0,0, 0,0,0,0]

theorem bogons_violated_missing : ∃ w f db, Written 32 none none [.addNetwork netfffe] demoEnv w f ∧ dbOpen f = .ok db ∧
    w.networks.networks = [netfffe] ∧ ∃ R s steps,
    (∀ f0 fuel, steps ≤ f0 → steps ≤ fuel → drain (nextBogon db f0) fuel (enumNew noFilter) = .ok (R, true, s)) ∧
    ¬ Covers [netfffe] ip2001 ∧ ¬ Covers R ip2001 := by
  obtain ⟨w, f, db, h1, h2, h3, h4, h5⟩ := bogon_file (ops := [.addNetwork netfffe]) (l := [netfffe])
    (by
      intro op h
      rw [List.mem_singleton] at h
      subst h
      exact .country (n := { netfffe with cc0 := 0, cc1 := 0 }) (cc := some [68, 69]) (.new (show newNetwork netfffe.first 96 = _ by decide +kernel)) (by decide +kernel))
    (by decide) (by decide +kernel) (by decide +kernel) (by decide) (by unfold AroundV4; decide +kernel)
  obtain ⟨found, steps, k1, hC, k2, k3⟩ := bogon_written (by decide) h1 h2 h4 h5 noFilter
  rw [h3] at k2
  obtain ⟨s, st, r⟩ := k3 [⟨.inet6, #v[0,0,0,0, 0,0,0,0, 0,0,0,0, 0,0,0,0], #v[0,0,0,0, 0,0,0,0, 0,0,0xff,0xff, 0xff,0xff,0xff,0xff], 80, 0, 0, 0, 0⟩] true
    (by rw [k2]; decide +kernel)
  refine ⟨w, f, db, h1, h2, h3, _, s, st, r, ?_, ?_⟩
  · rintro ⟨n, hn, hc⟩
    rw [List.mem_singleton] at hn
    subst hn
    revert hc
    unfold Contains
    decide +kernel
  · rintro ⟨n, hn, hc⟩
    rw [List.mem_singleton] at hn
    subst hn
    revert hc
    unfold Contains
    decide +kernel

/-- C29 violated: in the database with only 10.0.0.0/8 no IPv6 address is covered by a bogon, although none is stored. -/
theorem bogons_violated_family : ∃ w f db, Written 32 none none [.addNetwork net10de] demoEnv w f ∧ dbOpen f = .ok db ∧
    w.networks.networks = [net10de] ∧ ∃ R s steps,
    (∀ f0 fuel, steps ≤ f0 → steps ≤ fuel → drain (nextBogon db f0) fuel (enumNew noFilter) = .ok (R, true, s)) ∧
    ∀ n ∈ R, IsV4 n.first := by
  obtain ⟨w, f, db, h1, h2, h3, h4, h5⟩ := bogon_file (ops := [.addNetwork net10de]) (l := [net10de])
    (by intro op h; rw [List.mem_singleton] at h; subst h; exact de4_built (by decide +kernel))
    (by decide) (by decide +kernel) (by decide +kernel) (by decide) (by unfold AroundV4; decide +kernel)
  obtain ⟨found, steps, k1, hC, k2, k3⟩ := bogon_written (by decide) h1 h2 h4 h5 noFilter
  rw [h3] at k2
  obtain ⟨s, st, r⟩ := k3 [mk4 (ip4 0 0 0 0) (ip4 15 255 255 255) 4, mk4 (ip4 0 0 0 0) (ip4 127 255 255 255) 1, mk4 (ip4 128 0 0 0) (ip4 255 255 255 255) 1] true
    (by rw [k2]; decide +kernel)
  exact ⟨w, f, db, h1, h2, h3, _, s, st, r, by decide +kernel⟩

end Loc.Props
