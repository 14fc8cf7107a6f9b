import Verif.Props.Lookup
/-
C92: additions only change the answers for their addresses.
-/
namespace Loc.Props
open Loc Loc.Spec

/-- Blocks of the same size with a common address are the same. -/
theorem block_same_prefix {m n : Network} (hm : Block m) (hn : Block n) (hp : m.pfx = n.pfx) {a : Addr} (h1 : Contains m a) (h2 : Contains n a) :
    SameBlock m n := by
  refine ⟨?_, hp⟩
  have key : ∀ {k : Network}, Block k → Contains k a → value k.first = 2 ^ (128 - k.pfx) * (value a / 2 ^ (128 - k.pfx)) := by
    intro k hk hc
    have hpos : 0 < 2 ^ (128 - k.pfx) := Nat.two_pow_pos _
    have ha := hk.aligned
    have hl := hk.last_eq
    have c1 := hc.1
    have c2 := hc.2
    rw [hl] at c2
    generalize 2 ^ (128 - k.pfx) = s at *
    have hd := Nat.div_add_mod (value k.first) s
    rw [ha, Nat.add_zero] at hd
    have : value a / s = value k.first / s := by
      apply Nat.div_eq_of_lt_le
      · rw [Nat.mul_comm, hd]; exact c1
      · rw [Nat.add_mul, Nat.one_mul, Nat.mul_comm, hd]; omega
    rw [this, hd]
  rw [key hm h1, key hn h2, hp]

/-- The networks of a written database: an address resolves to one answer. -/
theorem resolves_unique {K : Type} {ctz0 : Nat} (h0 : 8 ≤ ctz0) {key1 key2 : Option K} {ops : List (WOp K)} {e : WEnv K}
    {w : Writer K} {f : Bytes} (h : Written ctz0 key1 key2 ops e w f) {a : Addr} {p q : CStr × BitVec 32 × BitVec 32}
    (hp : Resolves (· ∈ w.networks.networks) a p) (hq : Resolves (· ∈ w.networks.networks) a q) : p = q := by
  obtain ⟨db', ho', hh⟩ := written_holds h0 h
  obtain ⟨m, ⟨m1, m2, m3⟩, rfl⟩ := hp
  obtain ⟨n, ⟨n1, n2, n3⟩, rfl⟩ := hq
  obtain ⟨bm, lm⟩ := (mem_networks_wf hh.wf).mp m1
  obtain ⟨bn, ln⟩ := (mem_networks_wf hh.wf).mp n1
  have hs := block_same_prefix bm bn (Nat.le_antisymm (n3 m m1 m2) (m3 n n1 n2)) m2 n2
  have : path m = path n := by
    unfold path
    rw [value_inj hs.1, hs.2]
  rw [this, ln] at lm
  cases lm
  rfl

theorem most_specific_exists {a : Addr} : ∀ {l : List Network} {n : Network}, n ∈ l → Contains n a → ∃ k, MostSpecific (· ∈ l) a k
  | [], n, h, _ => by cases h
  | x :: l, n, h, hc => by
    by_cases hl : ∃ y ∈ l, Contains y a
    · obtain ⟨y, hy, hcy⟩ := hl
      obtain ⟨k, k1, k2, k3⟩ := most_specific_exists hy hcy
      by_cases hx : Contains x a ∧ k.pfx < x.pfx
      · refine ⟨x, List.mem_cons_self, hx.1, fun m hm hcm => ?_⟩
        rcases List.mem_cons.mp hm with rfl | hm
        · exact Nat.le_refl _
        · have := k3 m hm hcm; omega
      · refine ⟨k, List.mem_cons_of_mem _ k1, k2, fun m hm hcm => ?_⟩
        rcases List.mem_cons.mp hm with rfl | hm
        · exact Nat.le_of_not_lt fun g => hx ⟨hcm, g⟩
        · exact k3 m hm hcm
    · rcases List.mem_cons.mp h with rfl | h
      · refine ⟨n, List.mem_cons_self, hc, fun m hm hcm => ?_⟩
        rcases List.mem_cons.mp hm with rfl | hm
        · exact Nat.le_refl _
        · exact absurd ⟨m, hm, hcm⟩ hl
      · exact absurd ⟨n, h, hc⟩ hl

/-- Additions of networks. -/
def AddsNetworks {K : Type} (adds : List (WOp K)) : Prop := ∀ op ∈ adds, ∃ n, op = .addNetwork n

theorem networks_added {K : Type} : ∀ {adds : List (WOp K)}, AddsNetworks adds → ∀ (l : List Network) (k : Network),
    (k ∈ l → k ∈ adds.foldl networkStep l) ∧ (k ∈ adds.foldl networkStep l → k ∈ l ∨ .addNetwork k ∈ adds)
  | [], _, l, k => ⟨id, Or.inl⟩
  | op :: adds, h, l, k => by
    obtain ⟨n, rfl⟩ := h op List.mem_cons_self
    obtain ⟨h1, h2⟩ := networks_added (fun op hop => h op (List.mem_cons_of_mem _ hop)) (networkStep l (.addNetwork n)) k
    have hs : ∀ x, x ∈ networkStep l (.addNetwork n : WOp K) → x ∈ l ∨ x = n := by
      intro x hx
      unfold networkStep at hx
      simp only at hx
      split at hx
      · exact .inl hx
      · rcases List.mem_append.mp hx with hx | hx
        · exact .inl hx
        · exact .inr (List.mem_singleton.mp hx)
    have hk : ∀ x, x ∈ l → x ∈ networkStep l (.addNetwork n : WOp K) := by
      intro x hx
      unfold networkStep
      simp only
      split
      · exact hx
      · exact List.mem_append_left _ hx
    rw [List.foldl_cons]
    refine ⟨fun g => h1 (hk k g), fun g => ?_⟩
    rcases h2 g with g | g
    · rcases hs k g with g | rfl
      · exact .inl g
      · exact .inr List.mem_cons_self
    · exact .inr (List.mem_cons_of_mem _ g)

theorem most_specific_added {K : Type} {ops adds : List (WOp K)} (ha : AddsNetworks adds) {a : Addr} (hout : ∀ n, .addNetwork n ∈ adds → ¬ Contains n a)
    (k : Network) : MostSpecific (· ∈ networksOf (ops ++ adds)) a k ↔ MostSpecific (· ∈ networksOf ops) a k := by
  have hm := networks_added ha (networksOf ops)
  have e : networksOf (ops ++ adds) = adds.foldl networkStep (networksOf ops) := List.foldl_append
  constructor
  · rintro ⟨h1, h2, h3⟩
    rw [e] at h1 h3
    rcases (hm k).2 h1 with g | g
    · exact ⟨g, h2, fun m hm' hc => h3 m ((hm m).1 hm') hc⟩
    · exact absurd h2 (hout k g)
  · rintro ⟨h1, h2, h3⟩
    rw [e]
    refine ⟨(hm k).1 h1, h2, fun m hm' hc => ?_⟩
    rcases (hm m).2 hm' with g | g
    · exact h3 m g hc
    · exact absurd hc (hout m g)

/-- C92: two databases, of which the second has more networks: for an address that is in none of the additional networks,
    the answers have the same country, AS number and flags, if there are answers.  Missing: that there is an answer for both. -/
theorem lookup_local_partial {K : Type} {ctz0 : Nat} (h0 : 8 ≤ ctz0) {key1 key2 : Option K} {ops adds : List (WOp K)} {e e' : WEnv K}
    {w w' : Writer K} {f f' : Bytes} (h : Written ctz0 key1 key2 ops e w f) (h' : Written ctz0 key1 key2 (ops ++ adds) e' w' f')
    (hnw : ∀ op ∈ ops, IsWrite op = false) (ha : AddsNetworks adds) (hf : ∀ n ∈ networksOf (ops ++ adds), n.flags.toNat < 2 ^ 16)
    {a : Addr} (hout : ∀ n, .addNetwork n ∈ adds → ¬ Contains n a)
    {db db' : Db} (ho : dbOpen f = .ok db) (ho' : dbOpen f' = .ok db') {m m' : Network}
    (hl : lookup db a = .ok (.ok (some m))) (hl' : lookup db' a = .ok (.ok (some m'))) : props m = props m' := by
  have hnw' : ∀ op ∈ ops ++ adds, IsWrite op = false := by
    intro op hop
    rcases List.mem_append.mp hop with hop | hop
    · exact hnw op hop
    · obtain ⟨n, rfl⟩ := ha op hop
      rfl
  have hsub : ∀ n ∈ networksOf ops, n ∈ networksOf (ops ++ adds) := by
    intro n hn
    have e : networksOf (ops ++ adds) = adds.foldl networkStep (networksOf ops) := List.foldl_append
    rw [e]
    exact (networks_added ha (networksOf ops) n).1 hn
  obtain ⟨-, k, hk, hp⟩ := lookup_sound_added h0 h hnw (fun n hn => hf n (hsub n hn)) ho hl
  obtain ⟨-, k', hk', hp'⟩ := lookup_sound_added h0 h' hnw' hf ho' hl'
  have hk' := (most_specific_added ha hout k').mp hk'
  have hw := (write_preserves_lookup h0 h hnw a).1
  rw [hp, hp']
  exact resolves_unique h0 h ((hw _).mp ⟨k, hk, rfl⟩) ((hw _).mp ⟨k', hk', rfl⟩)

/-- Where a longest-prefix match is made in both databases (for instance, if no networks are nested, C14), there is an answer for
    both or for none. -/
theorem lookup_local_found {K : Type} {ctz0 : Nat} (h0 : 8 ≤ ctz0) {key1 key2 : Option K} {ops adds : List (WOp K)} {e e' : WEnv K}
    {w w' : Writer K} {f f' : Bytes} (h : Written ctz0 key1 key2 ops e w f) (h' : Written ctz0 key1 key2 (ops ++ adds) e' w' f')
    (hnw : ∀ op ∈ ops, IsWrite op = false) (ha : AddsNetworks adds)
    {a : Addr} (hout : ∀ n, .addNetwork n ∈ adds → ¬ Contains n a) {db db' : Db}
    (hm : LongestPrefixMatch (· ∈ w.networks.networks) db a) (hm' : LongestPrefixMatch (· ∈ w'.networks.networks) db' a) :
    ∃ r r', lookup db a = .ok (.ok r) ∧ lookup db' a = .ok (.ok r') ∧ (r.isSome ↔ r'.isSome) := by
  have hnw' : ∀ op ∈ ops ++ adds, IsWrite op = false := by
    intro op hop
    rcases List.mem_append.mp hop with hop | hop
    · exact hnw op hop
    · obtain ⟨n, rfl⟩ := ha op hop
      rfl
  obtain ⟨r, h1, h2, h3⟩ := hm
  obtain ⟨r', h1', h2', h3'⟩ := hm'
  refine ⟨r, r', h1, h1', ?_⟩
  have hw := write_preserves_lookup h0 h hnw a
  have hw' := write_preserves_lookup h0 h' hnw' a
  have hcov : (∃ n ∈ w.networks.networks, Contains n a) ↔ ∃ n ∈ w'.networks.networks, Contains n a := by
    rw [← hw.2, ← hw'.2]
    have e : networksOf (ops ++ adds) = adds.foldl networkStep (networksOf ops) := List.foldl_append
    rw [e]
    constructor
    · rintro ⟨n, hn, hc⟩
      exact ⟨n, (networks_added ha _ n).1 hn, hc⟩
    · rintro ⟨n, hn, hc⟩
      rcases (networks_added ha _ n).2 hn with g | g
      · exact ⟨n, g, hc⟩
      · exact absurd hc (hout n g)
  have key : ∀ {l : List Network} {r : Option Network}, (∀ k, MostSpecific (· ∈ l) a k → ∃ m, r = some m ∧ SameBlock m k) →
      ((∀ k, k ∈ l → ¬ Contains k a) → r = none) → (r.isSome ↔ ∃ n ∈ l, Contains n a) := by
    intro l r g1 g2
    constructor
    · intro hs
      apply Classical.byContradiction
      intro hno
      rw [g2 (fun k hk hc => hno ⟨k, hk, hc⟩)] at hs
      cases hs
    · rintro ⟨n, hn, hc⟩
      obtain ⟨k, hk⟩ := most_specific_exists hn hc
      obtain ⟨m, rfl, -⟩ := g1 k hk
      rfl
  rw [key h2 h3, key h2' h3', hcov]

def localOps : List (WOp Unit) := [.addNetwork net10_8]
def localAdds : List (WOp Unit) := [.addNetwork net10_1_16]

theorem local_file : ∃ w f db, Written 32 none none localOps demoEnv w f ∧ dbOpen f = .ok db ∧ w.networks.networks = [net10_8] :=
  example_file (by
    intro op hop
    rw [localOps, List.mem_singleton] at hop
    subst hop
    exact net10_8_built 32) (by decide) (by decide +kernel) (by decide +kernel)

theorem local_file_more : ∃ w f db, Written 32 none none (localOps ++ localAdds) demoEnv w f ∧ dbOpen f = .ok db ∧
    w.networks.networks = [net10_8, net10_1_16] :=
  example_file (by
    intro op hop
    have hop : op ∈ [(.addNetwork net10_8 : WOp Unit), .addNetwork net10_1_16] := hop
    rcases List.mem_cons.mp hop with rfl | hop
    · exact net10_8_built 32
    · rw [List.mem_singleton] at hop
      subst hop
      exact net10_1_16_built 32) (by decide) (by decide +kernel) (by decide +kernel)

theorem local_found {w : Writer Unit} {f : Bytes} {db : Db} {ops : List (WOp Unit)} (h : Written 32 none none ops demoEnv w f) (ho : dbOpen f = .ok db)
    (hl : w.networks.networks = [net10_8]) {a : Addr} (hc : Contains net10_8 a) : ∃ m, lookup db a = .ok (.ok (some m)) ∧ SameBlock m net10_8 := by
  have hn : ¬ StoredHost (· ∈ w.networks.networks) a := by
    rw [hl]
    rintro ⟨k, hk, h1, -⟩
    rw [List.mem_singleton] at hk
    subst hk
    cases h1
  obtain ⟨r, h1, h2, -⟩ := lookup_longest_prefix_disjoint (by decide) h ho hn (by rw [hl]; exact List.pairwise_singleton _ _)
    (by
      rw [hl]
      intro n hn _ hx
      rw [List.mem_singleton] at hn
      subst hn
      exact absurd hx.1 (by decide))
  obtain ⟨m, rfl, hs⟩ := h2 net10_8 (by
    rw [hl]
    refine ⟨List.mem_singleton.mpr rfl, hc, ?_⟩
    intro m hm _
    rw [List.mem_singleton] at hm; subst hm; exact Nat.le_refl _)
  exact ⟨m, h1, hs⟩

/-- C92, violated: 10.0.0.0/8 is stored; when 10.1.0.0/16 is added, 10.0.0.1 is not found any more. -/
theorem lookup_local_violated : ∃ w f db w' f' db' m, Written 32 none none localOps demoEnv w f ∧ dbOpen f = .ok db ∧
    Written 32 none none (localOps ++ localAdds) demoEnv w' f' ∧ dbOpen f' = .ok db' ∧ ¬ Contains net10_1_16 (ip4 10 0 0 1) ∧
    lookup db (ip4 10 0 0 1) = .ok (.ok (some m)) ∧ lookup db' (ip4 10 0 0 1) = .ok (.ok none) := by
  obtain ⟨w, f, db, h, ho, hl⟩ := local_file
  obtain ⟨w', f', db', h', ho', h3⟩ := local_file_more
  obtain ⟨m, hm, -⟩ := local_found h ho hl (a := ip4 10 0 0 1) (by decide)
  refine ⟨w, f, db, w', f', db', m, h, ho, h', ho', by decide, hm, ?_⟩
  refine lookup_misses (by decide) h' ho' (k := net10_8) (m := net10_1_16) ?_ ?_ ?_ (by decide) (by unfold AgreeOn; decide +kernel)
  · rw [h3]; decide +kernel
  · rw [h3]
    refine ⟨by decide +kernel, by decide +kernel, ?_⟩
    intro m hm
    revert m
    decide +kernel
  · rw [h3]; decide +kernel

/-- 10.128.0.1 is found in both: the hypotheses of `lookup_local_partial` are met. -/
example : AddsNetworks localAdds ∧ (∀ n, .addNetwork n ∈ localAdds → ¬ Contains n (ip4 10 128 0 1)) ∧
    (∀ n ∈ networksOf (localOps ++ localAdds), n.flags.toNat < 2 ^ 16) := by
  refine ⟨?_, ?_, by decide +kernel⟩
  · intro op hop
    rw [localAdds, List.mem_singleton] at hop
    exact ⟨_, hop⟩
  · intro n hn
    rw [localAdds, List.mem_singleton] at hn
    cases hn
    decide

end Loc.Props
