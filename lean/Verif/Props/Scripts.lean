import Verif.Props.Listing
import Verif.Props.Bindings
import Verif.Props.Enum
import Verif.Props.Networks
import Verif.Props.Signature
import Verif.Spec.Scripts
/-
C76: lookups and listings from Lua and Perl.
-/
namespace Loc.Props
open Loc Loc.Spec

/-- The network that a database finds for an address: the one that was stored last on the path of its bits (C14), as it
    was stored. -/
def FoundFor (S : Network → Prop) (a : Addr) (r : Option Network) : Prop :=
  (r.isSome ↔ ∃ k, LastOnPath S a k ∧ ¬ (k.pfx = 95 ∧ IsV4 a)) ∧
  ∀ m, r = some m → Contains m a ∧ ∃ k, MostSpecific S a k ∧ SameBlock m k ∧
    props m = ((props k).1, k.asn, BitVec.ofNat 32 (k.flags.toNat % 2 ^ 16))

theorem scriptStr_no_nul {s : Bytes} (h : (0 : Byte) ∉ s) : scriptStr s = s := by
  unfold scriptStr
  rw [List.takeWhile_eq_self_iff]
  intro c hc
  simp only [decide_eq_true_eq, ne_eq]
  rintro rfl
  exact h hc

theorem scriptStr_nul {s t : Bytes} (h : (0 : Byte) ∉ s) : scriptStr (s ++ 0 :: t) = s := by
  unfold scriptStr
  rw [List.takeWhile_append_of_pos]
  · simp
  · intro c hc
    simp only [decide_eq_true_eq, ne_eq]
    rintro rfl
    exact h hc

theorem perlFlag_names : ∀ x ∈ scriptFlags, perlFlag (scriptStr (ascii x.1)) = some (BitVec.twoPow 32 x.2) := by decide +kernel

theorem scriptFlag_bit (n : Network) {i : Nat} (hi : i < 32) : decide (hasFlag n (BitVec.twoPow 32 i) ≠ 0) = n.flags.getLsbD i := by
  unfold hasFlag
  rw [BitVec.and_twoPow]
  cases n.flags.getLsbD i with
  | false => simp
  | true =>
    simp only [if_true, decide_eq_true_eq]
    intro h
    have := congrArg BitVec.toNat h
    rw [BitVec.toNat_twoPow, Nat.mod_eq_of_lt (Nat.pow_lt_pow_right (by decide) hi)] at this
    have h2 := Nat.two_pow_pos i
    simp at this

theorem countryCode_props (n : Network) : countryCode n = (props n).1 := rfl

/-! ## Lookups -/

/-- C76 (partial): in Lua and Perl, looking up the text of an address gives what the library finds for this address: in Lua
    the network, in Perl its country, its AS and its flags.
    Missing from the full claim (`PerlSays`): networks without a country, for which Perl gets the empty string instead of
    `undef` (`perl_lookup_violated`), and addresses that are stored as networks of their own (C18). -/
theorem script_lookup_partial {K : Type} {ctz0 : Nat} (h0 : 8 ≤ ctz0) {key1 key2 : Option K} {ops : List (WOp K)} {e : WEnv K}
    {w : Writer K} {f : Bytes} (h : Written ctz0 key1 key2 ops e w f) {db : Db} (ho : dbOpen f = .ok db) (s : Bytes) (hs : (0 : Byte) ∉ s)
    {a : Addr} (ha : Denotes (beforeSlash s) a) (hn : ¬ StoredHost (· ∈ w.networks.networks) a) :
    ∃ r, FoundFor (· ∈ w.networks.networks) a r ∧ luaLookup db s = .ok (some r) ∧
      perlLookupCountry db s = .ok (some (r.map fun m => (props m).1)) ∧ ((∀ m, r = some m → (props m).1 ≠ []) → PerlSays db s r) ∧
      perlLookupAsn db s = .ok (some (r.bind asnOf)) ∧
      ∀ x ∈ scriptFlags, perlHasFlag db s (ascii x.1) = .ok (some (r.any (flagOf · x.2))) := by
  obtain ⟨r, -, h1, h2, h3⟩ := py_lookup_partial h0 h ho s hs ha hn
  have hl : lookupFromString db (scriptStr s) = .ok (some (.ok r)) := by
    rw [scriptStr_no_nul hs]; exact lookupFromString_ok db ha h1
  have hc : perlLookupCountry db s = .ok (some (r.map fun m => (props m).1)) := by
    unfold perlLookupCountry; rw [hl]; cases r <;> rfl
  have hasn : perlLookupAsn db s = .ok (some (r.bind asnOf)) := by
    unfold perlLookupAsn; rw [hl]; cases r <;> rfl
  have hf : ∀ x ∈ scriptFlags, perlHasFlag db s (ascii x.1) = .ok (some (r.any (flagOf · x.2))) := by
    intro x hx
    have h32 : x.2 < 32 := by revert x; decide
    unfold perlHasFlag
    rw [perlFlag_names x hx, hl]
    cases r with
    | none => rfl
    | some m => simp only [scriptFlag_bit m h32]; rfl
  refine ⟨r, ⟨h2, h3⟩, by unfold luaLookup; rw [hl], hc, fun hm => ⟨?_, hasn, hf⟩, hasn, hf⟩
  rw [hc]
  cases r with
  | none => rfl
  | some m =>
    simp only [Option.map_some, Option.bind_some, countryOf, if_neg (hm m rfl)]

/-- C76: texts that denote no address raise an error in Lua and make Perl die, whatever is asked for; so does a flag with
    another name. -/
theorem script_lookup_refused (db : Db) (s : Bytes) (hs : (0 : Byte) ∉ s) (ha : ∀ a, ¬ Denotes (beforeSlash s) a) :
    luaLookup db s = .ok none ∧ perlLookupCountry db s = .ok none ∧ perlLookupAsn db s = .ok none ∧ ∀ name, perlHasFlag db s name = .ok none := by
  have hl : lookupFromString db (scriptStr s) = .ok none := by rw [scriptStr_no_nul hs]; exact lookupFromString_invalid db ha
  refine ⟨by unfold luaLookup; rw [hl], by unfold perlLookupCountry; rw [hl], by unfold perlLookupAsn; rw [hl], fun name => ?_⟩
  unfold perlHasFlag
  rw [hl]
  cases perlFlag (scriptStr name) <;> rfl

example (db : Db) : luaLookup db exampleOrg = .ok none := (script_lookup_refused db exampleOrg exampleOrg_invalid.1 exampleOrg_invalid.2).1

/-- C76: other names of flags are refused, whatever the address. -/
theorem perl_flag_refused (db : Db) (s name : Bytes) (hn : (0 : Byte) ∉ name) (h : ∀ x ∈ scriptFlags, name ≠ ascii x.1) : perlHasFlag db s name = .ok none := by
  have hp : perlFlag (scriptStr name) = none := by
    rw [scriptStr_no_nul hn]
    have e1 : ascii "LOC_NETWORK_FLAG_ANONYMOUS_PROXY" = strFlag ++ strFlagProxy := by decide +kernel
    have e2 : ascii "LOC_NETWORK_FLAG_SATELLITE_PROVIDER" = strFlag ++ strFlagSatellite := by decide +kernel
    have e3 : ascii "LOC_NETWORK_FLAG_ANYCAST" = strFlag ++ strFlagAnycast := by decide +kernel
    have e4 : ascii "LOC_NETWORK_FLAG_DROP" = strFlag ++ strFlagDrop := by decide +kernel
    unfold perlFlag
    rw [if_neg (by rw [← e1]; exact h (_, 0) (by simp [scriptFlags])), if_neg (by rw [← e2]; exact h (_, 1) (by simp [scriptFlags])),
      if_neg (by rw [← e3]; exact h (_, 2) (by simp [scriptFlags])), if_neg (by rw [← e4]; exact h (_, 3) (by simp [scriptFlags]))]
  unfold perlHasFlag
  rw [hp]

example (db : Db) (s : Bytes) : perlHasFlag db s (ascii "ANYCAST") = .ok none := perl_flag_refused db s _ (by decide) (by decide +kernel)

/-- C76, violated: whatever follows a NUL is ignored. -/
theorem script_lookup_violated (db : Db) (s t : Bytes) (hs : (0 : Byte) ∉ s) :
    luaLookup db (s ++ 0 :: t) = luaLookup db s ∧ perlLookupCountry db (s ++ 0 :: t) = perlLookupCountry db s ∧
      perlLookupAsn db (s ++ 0 :: t) = perlLookupAsn db s := by
  unfold luaLookup perlLookupCountry perlLookupAsn
  rw [scriptStr_nul hs, scriptStr_no_nul hs]
  exact ⟨rfl, rfl, rfl⟩

/-- The example database, "10.1.2.3": the network was stored without a country. -/
theorem demo_script : ∃ w f db m, Written 32 none none demoOps demoEnv w f ∧ dbOpen f = .ok db ∧
    ¬ StoredHost (· ∈ w.networks.networks) (ip4 10 1 2 3) ∧ FoundFor (· ∈ w.networks.networks) (ip4 10 1 2 3) (some m) ∧
    luaLookup db text10 = .ok (some (some m)) ∧ SameBlock m net10_1_16 ∧ (props m).1 = [] ∧
    perlLookupCountry db text10 = .ok (some (some [])) := by
  obtain ⟨w, f, db, h, ho, hl⟩ := demo_file
  have hn : ¬ StoredHost (· ∈ w.networks.networks) (ip4 10 1 2 3) := by rw [hl]; decide
  obtain ⟨r, h1, h2, h3, -⟩ := script_lookup_partial (by decide) h ho text10 text10_denotes.1 text10_denotes.2 hn
  have hlast : ∃ k, LastOnPath (· ∈ w.networks.networks) (ip4 10 1 2 3) k ∧ ¬ (k.pfx = 95 ∧ IsV4 (ip4 10 1 2 3)) := by
    rw [hl]
    refine ⟨net10_1_16, ⟨by decide, by decide, ?_⟩, by decide⟩
    intro m hm hlt
    rcases List.mem_cons.mp hm with rfl | hm
    · exact absurd hlt (by decide)
    · rw [List.mem_singleton] at hm
      subst hm
      exact absurd hlt (by decide)
  obtain ⟨m, rfl⟩ := Option.isSome_iff_exists.mp (h1.1.mpr hlast)
  obtain ⟨-, k, ⟨k1, k2, k3⟩, hsb, hp⟩ := h1.2 m rfl
  have hk : k = net10_1_16 := by
    rw [hl] at k1 k3
    rcases List.mem_cons.mp k1 with rfl | k1
    · exact absurd (k3 net10_1_16 (by decide) (by decide)) (by decide)
    · exact List.mem_singleton.mp k1
  subst hk
  have hc : (props m).1 = [] := by rw [hp]; rfl
  refine ⟨w, f, db, m, h, ho, hn, h1, h2, hsb, hc, ?_⟩
  rw [h3]
  simp only [Option.map_some, hc]

/-- C76, violated: for a network without a country Perl gets the empty string, not `undef`. -/
theorem perl_lookup_violated : ∃ w f db r, Written 32 none none demoOps demoEnv w f ∧ dbOpen f = .ok db ∧
    FoundFor (· ∈ w.networks.networks) (ip4 10 1 2 3) r ∧ luaLookup db text10 = .ok (some r) ∧ ¬ PerlSays db text10 r := by
  obtain ⟨w, f, db, m, h, ho, -, h1, h2, -, hc, h3⟩ := demo_script
  refine ⟨w, f, db, some m, h, ho, h1, h2, fun hp => ?_⟩
  have := hp.1
  rw [h3] at this
  simp only [Option.bind_some, countryOf, hc, if_true] at this
  cases this

/-! ## Networks in Lua -/

/-- C76: AS, country and flags of a network in Lua. -/
theorem lua_properties (n : Network) : luaAsn n = asnOf n ∧ luaCountryCode n = countryOf n ∧
    ∀ i, i < 32 → luaHasFlag n (BitVec.twoPow 32 i) = flagOf n i :=
  ⟨rfl, rfl, fun _ hi => scriptFlag_bit n hi⟩

/-- C76 (partial): the subnets of a network in Lua are its two halves; for a single address an error is raised.  Missing: ::/79
    and ::fffe:0:0/95 (see C05). -/
theorem lua_subnets_partial {n : Network} (hb : Block n) (hc : CountryOk n) :
    (IsHost n → luaSubnets n = .ok none) ∧
    (¬ IsHost n → ¬ OddBlock n → ∃ s1 s2, luaSubnets n = .ok (some (s1, s2)) ∧ s1.pfx = n.pfx + 1 ∧ s2.pfx = n.pfx + 1 ∧
      (∀ a, Contains n a ↔ Contains s1 a ∨ Contains s2 a) ∧ (∀ a, ¬ (Contains s1 a ∧ Contains s2 a)) ∧ Before s1 s2 ∧
      props s1 = props n ∧ props s2 = props n) := by
  constructor
  · intro hh
    unfold luaSubnets
    rw [split_host hb hh]
  · intro hh hod
    obtain ⟨s1, s2, h, -, -, p1, p2, -, -, c1, c2, b, q1, q2⟩ := split_exact_partial hb hc hh hod
    exact ⟨s1, s2, by unfold luaSubnets; rw [h], p1, p2, c1, c2, b, q1, q2⟩

example : Block net10_8 ∧ CountryOk net10_8 ∧ ¬ IsHost net10_8 :=
  ⟨by decide +kernel, by decide +kernel, by unfold IsHost; decide⟩

/-- C76: `Network.new` in Lua makes the network that the library reads from the text (C34); what the library refuses raises an
    error. -/
theorem lua_network_new (s : Bytes) (hs : (0 : Byte) ∉ s) : (∀ n, newFromString (some s) = .ok n → luaNetwork s = .ok (some n)) ∧
    ((∀ n, newFromString (some s) ≠ .ok n) → luaNetwork s = .ok none) := by
  unfold luaNetwork
  rw [scriptStr_no_nul hs]
  constructor
  · intro n hn
    rw [hn]
  · intro hn
    rcases newFromString_cases s with ⟨n, h⟩ | h
    · exact absurd h (hn n)
    · rw [h]

/-- C76: reverse pointers in Lua are those of the library (C31), `nil` if there is none; no error is ever raised. -/
theorem lua_reverse_pointer {n : Network} (hb : Block n) (suffix : Option CStr) :
    (∀ s, reversePointer n suffix = .ok s → luaReversePointer n suffix = .ok (some (some s))) ∧
    ((∀ s, reversePointer n suffix ≠ .ok s) → luaReversePointer n suffix = .ok (some none)) := by
  constructor
  · intro s hs
    unfold luaReversePointer
    rw [hs]
  · intro hs
    have : reversePointer n suffix = .error (.err ENOTSUP) := by
      cases hf : n.family with
      | inet6 =>
        by_cases h4 : n.pfx % 4 = 0
        · obtain ⟨l, -, -, h⟩ := (reverse_pointer_inet6 hb hf suffix).2 h4
          exact absurd h (hs _)
        · exact (reverse_pointer_inet6 hb hf suffix).1 h4
      | inet =>
        by_cases h8 : n.pfx % 8 = 0
        · obtain ⟨l, -, -, h⟩ := (reverse_pointer_inet hb hf suffix).2 h8
          exact absurd h (hs _)
        · exact (reverse_pointer_inet hb hf suffix).1 h8
    unfold luaReversePointer
    rw [this]
    rfl

/-! ## Listings -/

theorem ccString_valid {c0 c1 : Byte} (h : ValidCC (ccString c0 c1)) : ccString c0 c1 = [c0, c1] := by
  obtain ⟨a, b, hab, h1, -, h2, -⟩ := h
  unfold ccString at hab ⊢
  by_cases h0 : c0 = 0
  · rw [if_pos h0] at hab; cases hab
  · rw [if_neg h0] at hab ⊢
    by_cases h0 : c1 = 0
    · rw [if_pos h0] at hab; cases hab
    · rw [if_neg h0]

/-- C76: the countries in Perl are exactly the codes of the countries that were added, each once, in the order of the first
    additions. -/
theorem perl_countries {K : Type} {ctz0 : Nat} (h0 : 8 ≤ ctz0) {key1 key2 : Option K} {ops : List (WOp K)} {e : WEnv K}
    {w : Writer K} {f : Bytes} (h : Written ctz0 key1 key2 ops e w f) {db : Db} (ho : dbOpen f = .ok db) :
    ∃ codes, (∀ fuel, codes.length < fuel → perlCountries db fuel = .ok (some codes)) ∧ codes.Nodup ∧ codes.Sublist (codesAdded ops) ∧
      ∀ code, code ∈ codes ↔ countriesOf ops code ≠ none := by
  obtain ⟨db', ho', l, h1, h2, h3, h4, -⟩ := country_enumeration_partial h0 h
  rw [ho] at ho'
  cases ho'
  have hmap : (l.map fun c => [c.c0, c.c1]) = l.map countryGetCode := by
    apply List.map_congr_left
    intro c hc
    have hv : ValidCC (countryGetCode c) := codesAdded_valid (h3.subset (List.mem_map_of_mem hc))
    exact (ccString_valid hv).symm
  refine ⟨l.map countryGetCode, fun fuel hf => ?_, h2, h3, h4⟩
  unfold perlCountries
  rw [h1 fuel (by simpa using hf)]
  simp only [if_true, hmap]

/-- C76 (partial): iterating over the networks in Lua gives every stored network exactly once, in ascending order, as it was
    stored.  Missing: as in C16. -/
theorem lua_networks_partial {K : Type} {ctz0 : Nat} (h0 : 8 ≤ ctz0) {key1 key2 : Option K} {ops : List (WOp K)} {e : WEnv K}
    {w : Writer K} {f : Bytes} (h : Written ctz0 key1 key2 ops e w f) {db : Db} (ho : dbOpen f = .ok db)
    (hd : ¬ TooDeep (· ∈ w.networks.networks)) (hv : ∀ n ∈ w.networks.networks, ¬ AroundV4 n) :
    ∃ l, (∀ fuel, l.length < fuel → luaNetworks db fuel = .ok (some l)) ∧ Ascending l ∧
      (∀ n ∈ w.networks.networks, ∃ m ∈ l, ReadFrom n m) ∧ (∀ m ∈ l, ∃ n ∈ w.networks.networks, ReadFrom n m) := by
  obtain ⟨l, h1, h2⟩ := network_enumeration_partial h0 h ho hd hv
  refine ⟨l, fun fuel hf => ?_, h2⟩
  obtain ⟨s, hs, -⟩ := h1 fuel hf
  have hs : drain (nextNetwork db) fuel (enumNew ⟨0, none, none, 0⟩) = .ok (l, true, s) := hs
  unfold luaNetworks
  rw [hs]
  rfl

theorem drain_calls {σ α : Type} {next : σ → Res (Next α × σ)} {fuel : Nat} {s : σ} {l : List α} :
    (∃ s', drain next fuel s = .ok (l, true, s')) ↔ CallsYield next s l ∧ l.length < fuel := by
  induction fuel generalizing s l with
  | zero => exact ⟨fun ⟨_, h⟩ => (by cases h), fun ⟨_, h⟩ => (by omega)⟩
  | succ fuel ih =>
    unfold drain
    constructor
    · rintro ⟨s', h⟩
      split at h
      · cases h
      · rename_i s1 hn
        cases h
        exact ⟨.done hn, Nat.zero_lt_succ _⟩
      · cases h
      · cases h
      · rename_i x s1 hn
        split at h
        · cases h
        · rename_i l1 b s2 hd
          cases h
          obtain ⟨h1, h2⟩ := ih.mp ⟨_, hd⟩
          exact ⟨.item hn h1, Nat.succ_lt_succ h2⟩
    · rintro ⟨h, hf⟩
      cases h with
      | done hn => exact ⟨_, by rw [hn]⟩
      | @item _ s1 x l hn hl =>
        obtain ⟨s', hs⟩ := ih.mpr ⟨hl, Nat.lt_of_succ_lt_succ hf⟩
        exact ⟨s', by simp only [hn, hs]⟩

/-- C76: iterating over the networks of any file, also a damaged one, ends without an error in Lua exactly if no call of the
    enumerator fails, and gives what it gives. -/
theorem lua_networks_all (db : Db) (fuel : Nat) (l : List Network) :
    luaNetworks db fuel = .ok (some l) ↔ CallsYield (nextNetwork db) (enumNew ⟨0, none, none, 0⟩) l ∧ l.length < fuel := by
  rw [← drain_calls]
  unfold luaNetworks
  cases drain (nextNetwork db) fuel (enumNew ⟨0, none, none, 0⟩) with
  | error e => exact ⟨fun h => (by cases h), fun ⟨_, h⟩ => (by cases h)⟩
  | ok r =>
    obtain ⟨l', done, s⟩ := r
    cases done with
    | true =>
      constructor
      · intro h
        injection h with h
        exact ⟨s, by rw [Option.some.inj h]⟩
      · rintro ⟨s', h⟩
        cases h
        rfl
    | false => exact ⟨fun h => (by cases h), fun ⟨_, h⟩ => (by cases h)⟩

theorem calls_countries {db : Db} {i : Nat} {l : List Country} (hi : i ≤ db.countryCount) (h : CallsYield (nextCountry db) i l) :
    l.length = db.countryCount - i ∧ ∀ k c, l[k]? = some c → fetchCountry db (i + k) = .ok (some c) := by
  generalize hs : i = s at h
  induction h generalizing i with
  | done hn =>
    subst hs
    unfold nextCountry at hn
    split at hn
    · split at hn <;> cases hn
    · exact ⟨by simp only [List.length_nil]; omega, fun k c h => (by cases h)⟩
  | @item s s' x l hn hl ih =>
    subst hs
    unfold nextCountry at hn
    split at hn
    · rename_i hlt
      split at hn
      · cases hn
      · cases hn
      · rename_i c hc
        cases hn
        obtain ⟨h1, h2⟩ := ih (i := i + 1) (by omega) rfl
        refine ⟨by rw [List.length_cons, h1]; omega, fun k c' h => ?_⟩
        cases k with
        | zero =>
          cases h
          exact hc
        | succ k =>
          have := h2 k c' h
          rw [show i + (k + 1) = i + 1 + k by omega]
          exact this
    · cases hn

/-- C76: from any file, also a damaged one, a list of countries in Perl has the codes of all records; otherwise there is none. -/
theorem perl_countries_all {db : Db} {fuel : Nat} {codes : List CStr} (h : perlCountries db fuel = .ok (some codes)) :
    codes.length = db.countryCount ∧
      ∀ k code, codes[k]? = some code → ∃ c, fetchCountry db k = .ok (some c) ∧ code = [c.c0, c.c1] := by
  unfold perlCountries at h
  cases hd : drain (nextCountry db) fuel 0 with
  | error e => rw [hd] at h; cases h
  | ok r =>
    obtain ⟨l, done, s⟩ := r
    rw [hd] at h
    cases done with
    | false => cases h
    | true =>
      injection h with h
      have h := Option.some.inj h
      obtain ⟨h1, h2⟩ := calls_countries (Nat.zero_le _) (drain_calls.mp ⟨s, hd⟩).1
      subst h
      refine ⟨by rw [List.length_map, h1]; omega, fun k code hk => ?_⟩
      rw [List.getElem?_map] at hk
      cases hl : l[k]? with
      | none => rw [hl] at hk; cases hk
      | some c =>
        rw [hl] at hk
        cases hk
        have := h2 k c hl
        rw [Nat.zero_add] at this
        exact ⟨c, this, rfl⟩

/-! ## The database -/

/-- C76: vendor, description and license in Lua and Perl are what was last set. -/
theorem script_metadata {K : Type} {ctz0 : Nat} (h0 : 8 ≤ ctz0) {key1 key2 : Option K} {ops : List (WOp K)} {e : WEnv K}
    {w : Writer K} {f : Bytes} (h : Written ctz0 key1 key2 ops e w f) {db : Db} (ho : dbOpen f = .ok db) :
    scriptMeta db = .ok (some (lastSet vendorCall ops), some (lastSet descriptionCall ops), some (lastSet licenseCall ops)) := by
  obtain ⟨db', ho', h1, h2, h3, -⟩ := metadata_roundtrip h0 h
  rw [ho] at ho'
  cases ho'
  unfold scriptMeta
  rw [h1, h2, h3]

/-- C76: verification in Lua and Perl says that the file is valid only if one of its signatures is valid for its contents. -/
theorem script_verify {P : Type} {v : VEnv P} {f : Bytes} {db : Db} (ho : dbOpen f = .ok db)
    (h : luaVerify v db = .ok true ∨ perlVerify v db = .ok (some true)) :
    ∃ key second, v.key = some key ∧ storedSignature f second ≠ [] ∧ v.check key (verifyMessage f) (storedSignature f second) = .valid := by
  apply verify_only_valid ho
  rcases h with h | h
  · unfold luaVerify at h
    cases hr : dbVerify v db with
    | error e => rw [hr] at h; cases h
    | ok r =>
      rw [hr] at h
      injection h with h
      rw [of_decide_eq_true h]
  · unfold perlVerify at h
    cases hr : dbVerify v db with
    | error e => rw [hr] at h; cases h
    | ok r =>
      rw [hr] at h
      injection h with h
      by_cases h0 : r = 0
      · rw [h0]
      · rw [if_neg h0] at h; cases h

/-- C76, violated: `verify` in Perl never returns false; it dies. -/
theorem perl_verify_violated {P : Type} (v : VEnv P) (db : Db) : perlVerify v db ≠ .ok (some false) := by
  unfold perlVerify
  cases dbVerify v db with
  | error e => intro h; cases h
  | ok r =>
    simp only
    split <;> intro h <;> cases h

end Loc.Props
