import Verif.Lemmas.WhoisParts
/-
C66: entries of a registry that are left out.  C67: statistics of the registries.  C68: objects about networks.  C69: names of
autonomous systems.  C70: sources as a whole.
-/
namespace Loc.Props
open Loc Loc.Spec

/-! ## C66 -/

theorem saysAt_below {t : NetRows} {a : Addr} {y : Option (Option CStr)} (hp : ∀ x ∈ t, x.1.pfx ≤ 128) (h : SaysAt t a y) :
    BelowAt t a 129 y.join := by
  rcases h with ⟨z, ⟨n, h1, h2, h3⟩, rfl⟩ | ⟨h, rfl⟩
  · exact .inl ⟨n, h1, h2, by have := hp _ h1; simp only at this; omega, fun m hm hc _ => h3 m hm hc⟩
  · exact .inr ⟨fun m hm hc => absurd hc (h m hm), rfl⟩

theorem countryBelow_all {entry : Network → Option CStr → Prop} {a : Addr} {x : Option CStr} (hp : ∀ n c, entry n c → n.pfx ≤ 128)
    (h : CountryBelow entry a 129 x) : CountryAt entry a x := by
  have hp' : ∀ n c, entry n c → n.pfx < 129 := fun n c h => by have := hp n c h; omega
  rcases h with ⟨n, cc, ⟨h1, -⟩, h2, h3, h4⟩ | ⟨h1, h2⟩
  · exact .inl ⟨n, cc, h1, h2, fun m cc' hm hc => h3 m cc' ⟨hm, hp' _ _ hm⟩ hc, h4⟩
  · exact .inr ⟨fun m cc hm => h1 m cc ⟨hm, hp' _ _ hm⟩, h2⟩

/-- The full claim: after the networks of a source were copied into the table, the table says about every address what all the
    entries together say, even though not all of them are in the table. -/
def CopiedCountries (source : CStr) (rows : List (Network × Option CStr)) (t : List (Network × Option CStr × CStr)) : Prop :=
  ∀ a y, SaysAt (countriesIn (copyNetworks source rows t)) a y → CountryAt (InEither (countriesIn t) rows) a y.join

/-- Leaving out entries does not change the country of any address.  Missing: entries without a country which are stored
    nevertheless and lie inside of an entry with a country (where it does not hold: `copied_countries_violated`). -/
theorem copied_countries_partial {source : CStr} {rows : List (Network × Option CStr)} {t : List (Network × Option CStr × CStr)}
    (hu : UniqueNetworks rows) (hut : UniqueNetworks t) (hi : ∀ x ∈ rows, InetValue x.1) (hit : ∀ x ∈ t, InetValue x.1)
    (hnull : ∀ n, ((n, none) ∈ countriesIn t ∨ ((n, none) ∈ rows ∧ AmongLargest rows n)) →
      ∀ m cc, InEither (countriesIn t) rows m (some cc) → ¬ StrictlyInside n m) : CopiedCountries source rows t := by
  intro a y h
  have hp : ∀ x ∈ rows, x.1.pfx ≤ 128 := fun x hx => (inet_block (hi x hx)).le
  have hpt : ∀ x ∈ countriesIn t, x.1.pfx ≤ 128 := by
    intro x hx
    obtain ⟨z, hz, rfl⟩ := List.mem_map.mp hx
    exact (inet_block (hit z hz)).le
  refine countryBelow_all ?_ (copied_country hu hut hi hit hnull a 129 y.join (saysAt_below ?_ h))
  · rintro n c (hm | ⟨hm, -⟩)
    · exact hpt _ hm
    · exact hp _ hm
  · intro x hx
    obtain ⟨ext, hF, hm⟩ := copyNetworks_mem source hu hp t
    obtain ⟨z, hz, rfl⟩ := List.mem_map.mp hx
    rw [hF] at hz
    rcases List.mem_append.mp hz with hz | hz
    · exact (inet_block (hit z hz)).le
    · exact hp _ ((hm z).mp hz).2.1

/-- The first source that is processed: nothing is missing if the largest entries have countries. -/
theorem copied_countries_first {source : CStr} {rows : List (Network × Option CStr)} (hu : UniqueNetworks rows)
    (hi : ∀ x ∈ rows, InetValue x.1) (hnull : ∀ n, (n, none) ∈ rows → AmongLargest rows n → ∀ m cc, (m, some cc) ∈ rows → ¬ StrictlyInside n m) :
    CopiedCountries source rows [] := by
  refine copied_countries_partial hu List.nodup_nil hi (fun x hx => by cases hx) ?_
  rintro n (h | ⟨h1, h2⟩) m cc hm
  · cases h
  · rcases hm with hm | ⟨hm, -⟩
    · cases hm
    · exact hnull n h1 h2 m cc hm

/-- Nothing that was in the table disappears, and nothing appears but the entries of the source. -/
theorem copied_entries {source : CStr} {rows : List (Network × Option CStr)} {t : List (Network × Option CStr × CStr)}
    (hu : UniqueNetworks rows) (hi : ∀ x ∈ rows, InetValue x.1) :
    (∀ x ∈ t, x ∈ copyNetworks source rows t) ∧
    ∀ n c s, (n, c, s) ∈ copyNetworks source rows t → (n, c, s) ∈ t ∨ ((n, c) ∈ rows ∧ s = source ∧ ∀ c', (n, c') ∉ countriesIn t) := by
  obtain ⟨ext, hF, hm⟩ := copyNetworks_mem source hu (fun x hx => (inet_block (hi x hx)).le) t
  rw [hF]
  refine ⟨fun x hx => List.mem_append_left _ hx, fun n c s h => ?_⟩
  rcases List.mem_append.mp h with h | h
  · exact .inl h
  · obtain ⟨h1, h2, h3, -⟩ := (hm _).mp h
    refine .inr ⟨h2, h3, fun c' hc => h1 ?_⟩
    obtain ⟨z, hz, he⟩ := List.mem_map.mp hc
    exact List.mem_map.mpr ⟨z, hz, (Prod.mk.inj he).1⟩

theorem inet_sample {n : Network} {a : Addr} {p : Nat} (h : newNetwork a p = .ok n) (hf : n.family = .inet) : InetValue n :=
  ⟨⟨a, p, h⟩, fun h6 => by rw [hf] at h6; cases h6⟩

theorem inet10_8p : InetValue net10_8p := inet_sample (a := ip4 10 0 0 0) (p := 8) (by decide +kernel) rfl
theorem inet10_1_16 : InetValue net10_1_16 := inet_sample (a := ip4 10 1 0 0) (p := 16) (by decide +kernel) rfl
theorem inet10_1_2_24 : InetValue net10_1_2_24 := inet_sample (a := ip4 10 1 2 0) (p := 24) (by decide +kernel) rfl

/-- 10.0.0.0/8 and 10.1.0.0/16 in DE, 10.1.2.0/24 in FR -/
def registryRows : List (Network × Option CStr) :=
  [(net10_8p, some (ascii "DE")), (net10_1_16, some (ascii "DE")), (net10_1_2_24, some (ascii "FR"))]

/-- The sample meets the hypotheses; one of the entries is left out. -/
example : CopiedCountries (ascii "RIPE") registryRows [] ∧
    (copyNetworks (ascii "RIPE") registryRows []).map (fun x => (x.1.pfx, x.2.1)) = [(104, some (ascii "DE")), (120, some (ascii "FR"))] := by
  refine ⟨copied_countries_first (by unfold UniqueNetworks registryRows; decide +kernel) ?_ ?_, by decide +kernel⟩
  · intro x hx
    simp only [registryRows, List.mem_cons, List.not_mem_nil, or_false] at hx
    rcases hx with rfl | rfl | rfl
    · exact inet10_8p
    · exact inet10_1_16
    · exact inet10_1_2_24
  · intro n hn
    simp only [registryRows, List.mem_cons, List.not_mem_nil, or_false, Prod.mk.injEq] at hn
    rcases hn with ⟨-, h⟩ | ⟨-, h⟩ | ⟨-, h⟩ <;> cases h

/-- The claim does not hold in general: 10.0.0.0/8 is known to be in DE, and a source has the entry 10.1.0.0/16 without a
    country.  It is stored, and 10.1.2.3 has no country any more. -/
theorem copied_countries_violated : ¬ CopiedCountries (ascii "B") [(net10_1_16, none)] [(net10_8p, some (ascii "DE"), ascii "A")] := by
  intro h
  have hcopy : copyNetworks (ascii "B") [(net10_1_16, none)] [(net10_8p, some (ascii "DE"), ascii "A")] =
      [(net10_8p, some (ascii "DE"), ascii "A"), (net10_1_16, none, ascii "B")] := by decide +kernel
  have hsays : SaysAt (countriesIn [(net10_8p, some (ascii "DE"), ascii "A"), (net10_1_16, none, ascii "B")]) (ip4 10 1 2 3) (some none) := by
    refine .inl ⟨none, ⟨net10_1_16, by simp [countriesIn], by decide +kernel, fun y hy _ => ?_⟩, rfl⟩
    simp only [countriesIn, List.map_cons, List.map_nil, List.mem_cons, List.not_mem_nil, or_false] at hy
    rcases hy with rfl | rfl <;> decide
  have := h (ip4 10 1 2 3) (some none) (by rw [hcopy]; exact hsays)
  rcases this with ⟨n, cc, -, -, -, hn⟩ | ⟨hn, -⟩
  · cases hn
  · exact hn net10_8p (ascii "DE") (.inl (by simp [countriesIn])) (by decide +kernel)

/-! ## C67 -/

/-- The country that the table gives a network. -/
def TableSays (t : List (Network × Option CStr × CStr)) (n : Network) (c : Option CStr) : Prop := ∃ s, (n, c, s) ∈ t

/-- A line of the statistics sets the country of its network, and leaves everything else as it is; otherwise it is faulty. -/
theorem statistics_line (e : WhoisEnv) (source : CStr) (t : WhoisTables) (line : Bytes) :
    (∃ t', parseStat e source t line = .ret t' ∧
      (∀ n c, TableSays t'.networks n c ↔ (∃ cc, StatRow e line n cc ∧ c = some cc) ∨ ((∀ cc, ¬ StatRow e line n cc) ∧ TableSays t.networks n c)) ∧
      t' = { t with networks := t'.networks }) ∨
    (∃ x, parseStat e source t line = .exc x ∧ FaultyStat e line) := by
  rcases parseStat_cases e source t line with ⟨g1, g2⟩ | ⟨n, cc, g1, g2⟩ | ⟨x, g1, g2⟩
  · refine .inl ⟨t, g1, fun n c => ⟨fun h => .inr ⟨g2 n, h⟩, fun h => ?_⟩, rfl⟩
    rcases h with ⟨cc, h, -⟩ | ⟨-, h⟩
    · exact absurd h (g2 n cc)
    · exact h
  · refine .inl ⟨_, g2, fun n' c => ?_, rfl⟩
    have hp : GoodPart (.line line) := fun ts h => by cases h
    have he := (parsePart_ret (e := e) (source := source) hp g2).networks n' c
    have h1 : ∀ c, StatEntry e (.line line) n' c ↔ ∃ cc, StatRow e line n' cc ∧ c = some cc := fun c => by
      unfold StatEntry
      simp only [inLine_line]
    have h2 : (∀ v, ¬ StatEntry e (.line line) n' v) ↔ ∀ cc, ¬ StatRow e line n' cc := by
      constructor
      · exact fun h cc hc => h (some cc) ((h1 _).mpr ⟨cc, hc, rfl⟩)
      · rintro h v hv
        obtain ⟨cc, hc, -⟩ := (h1 v).mp hv
        exact h cc hc
    rw [h1, h2] at he
    refine he.trans ?_
    constructor
    · rintro (h | ⟨h, h' | ⟨-, h'⟩⟩)
      · exact .inl h
      · exact .inr ⟨h, h'⟩
      · exact absurd h' id
    · rintro (h | ⟨h, h'⟩)
      · exact .inl h
      · exact .inr ⟨h, .inl h'⟩
  · exact .inr ⟨x, g1, g2⟩

/-- The full claim: the network of a line about IPv4 consists of the addresses that the line is about. -/
def StatisticsExact (e : WhoisEnv) (line : Bytes) : Prop :=
  ∀ n cc cc' address i a, StatRow e line n cc → StatAbout e line cc' (ascii "ipv4") address i → Denotes address a → IsV4 a →
    ∀ b, Contains n b ↔ value a ≤ value b ∧ (value b : Int) < value a + i

theorem statAbout_unique {e : WhoisEnv} {line cc type address cc' type' address' : Bytes} {i i' : Int} (h : StatAbout e line cc type address i)
    (h' : StatAbout e line cc' type' address' i') : cc' = cc ∧ type' = type ∧ address' = address ∧ i' = i := by
  rw [← statAbout_iff] at h h'
  rw [h] at h'
  cases h'
  exact ⟨rfl, rfl, rfl, rfl⟩

/-- Lines about IPv4.  Missing: lines where the number of addresses is not a power of two that divides the first address (where
    it does not hold: `statistics_violated`). -/
theorem statistics_exact_partial {e : WhoisEnv} {line : Bytes}
    (hpow : ∀ cc address i a, StatAbout e line cc (ascii "ipv4") address i → Denotes address a → IsV4 a →
      ∃ k, i = (2 : Int) ^ k ∧ 2 ^ k ∣ value a) : StatisticsExact e line := by
  rintro n cc cc' address i a ⟨type, address', i', a', m, p, hs, hd, -, -, hi, hn, -⟩ hs' hd' hv b
  obtain ⟨rfl, rfl, rfl, rfl⟩ := statAbout_unique hs hs'
  have haa : a' = a := by
    obtain ⟨f, hf⟩ := denotes_iff.mp hd
    obtain ⟨f', hf'⟩ := denotes_iff.mp hd'
    rw [hf] at hf'
    cases hf'
    rfl
  subst haa
  rw [if_pos rfl] at hi
  obtain ⟨k, hk, h1, h2⟩ := hi
  obtain ⟨k', hi', hdvd⟩ := hpow _ _ _ _ hs hd hv
  subst hi'
  have hkk : k' = k := by
    have g1 : (2 : Nat) ^ k ≤ 2 ^ k' := by exact_mod_cast h1
    have g2 : (2 : Nat) ^ k' < 2 ^ (k + 1) := by exact_mod_cast h2
    have := (Nat.pow_le_pow_iff_right (by omega : 1 < 2)).mp g1
    have := (Nat.pow_lt_pow_iff_right (by omega : 1 < 2)).mp g2
    omega
  subst hkk
  have ha : addrOfNat (value a') = a' := value_inj (value_addrOfNat (value_lt a'))
  have hw : width a' = 32 := by
    unfold width
    rw [if_pos hv]
  obtain ⟨n', e1, e2, e3⟩ := new_at (value_lt a') hdvd (w := 32) (by rw [ha, hw]) (by omega)
  rw [ha, show 32 - k' = p by omega, hn] at e1
  cases e1
  have hb := (new_canonical _ _ _ hn).1
  have hl := hb.last_eq
  rw [e3, show 128 - (128 - k') = k' by omega] at hl
  have hpos := Nat.two_pow_pos k'
  unfold Contains
  rw [hl, e2]
  have : ((value a' : Nat) : Int) + (2 : Int) ^ k' = ((value a' + 2 ^ k' : Nat) : Int) := by push_cast; rfl
  rw [this]
  omega

/-- An environment where every network is globally routable and the countries are DE and FR -/
def openEnv : WhoisEnv := ⟨fun _ => true, [ascii "DE", ascii "FR"], fun _ => none⟩

/-- No entries at all -/
def noTables : WhoisTables := ⟨[], [], [], [], [], []⟩

/-- First address, prefix length and country of the entries -/
def shown (t : List (Network × Option CStr × CStr)) : List (List Byte × Nat × Option CStr) :=
  t.map fun x => (x.1.first.toList.drop 12, x.1.pfx - 96, x.2.1)

/-- 256 addresses from 10.1.2.0 in DE -/
def statLine : Bytes := ascii "ripencc|DE|ipv4|10.1.2.0|256|20200101|allocated"

theorem statLine_about {cc address : Bytes} {i : Int} (h : StatAbout openEnv statLine cc (ascii "ipv4") address i) :
    cc = ascii "DE" ∧ address = ascii "10.1.2.0" ∧ i = 256 := by
  have : statAbout openEnv statLine = some (ascii "DE", ascii "ipv4", ascii "10.1.2.0", 256) := by decide +kernel
  obtain ⟨h1, -, h2, h3⟩ := statAbout_unique (statAbout_iff.mp this) h
  exact ⟨h1, h2, h3⟩

/-- The sample meets the hypotheses and sets the country of a network. -/
example : StatisticsExact openEnv statLine ∧ (∃ n, StatRow openEnv statLine n (ascii "DE")) ∧
    ∃ t', parseStat openEnv (ascii "RIPE") noTables statLine = .ret t' ∧ shown t'.networks = [([10, 1, 2, 0], 24, some (ascii "DE"))] := by
  have hres : ∃ t', parseStat openEnv (ascii "RIPE") noTables statLine = .ret t' ∧ shown t'.networks = [([10, 1, 2, 0], 24, some (ascii "DE"))] := by
    have : (match parseStat openEnv (ascii "RIPE") noTables statLine with
      | .ret t' => shown t'.networks
      | .exc _ => []) = [([10, 1, 2, 0], 24, some (ascii "DE"))] := by decide +kernel
    cases h : parseStat openEnv (ascii "RIPE") noTables statLine with
    | exc x => rw [h] at this; cases this
    | ret t' => rw [h] at this; exact ⟨t', rfl, this⟩
  refine ⟨statistics_exact_partial ?_, ?_, hres⟩
  · intro cc address i a h hd hv
    obtain ⟨-, rfl, rfl⟩ := statLine_about h
    refine ⟨8, rfl, ?_⟩
    obtain ⟨f, hf⟩ := denotes_iff.mp hd
    have : parseText (ascii "10.1.2.0") = some (ip4 10 1 2 0, .inet) := by decide +kernel
    rw [this] at hf
    cases hf
    decide +kernel
  · obtain ⟨t', h1, h2⟩ := hres
    rcases parseStat_cases openEnv (ascii "RIPE") noTables statLine with ⟨g1, -⟩ | ⟨n, cc, g1, g2⟩ | ⟨x, g1, -⟩
    · rw [h1] at g1
      cases g1
      cases h2
    · have hr := (g1 n cc).mpr ⟨rfl, rfl⟩
      refine ⟨n, ?_⟩
      rw [h1] at g2
      cases g2
      have h3 : [(n.first.toList.drop 12, n.pfx - 96, some cc)] = [([10, 1, 2, 0], 24, some (ascii "DE"))] := h2
      simp only [List.cons.injEq, Prod.mk.injEq, Option.some.injEq, and_true] at h3
      rw [h3.2.2] at hr
      exact hr
    · rw [h1] at g1
      cases g1

/-- 768 addresses from 10.0.0.0 in DE -/
def oddLine : Bytes := ascii "ripencc|DE|ipv4|10.0.0.0|768|20200101|allocated"

/-- The claim does not hold in general: of 768 addresses from 10.0.0.0 on, only 512 get the country. -/
theorem statistics_violated : ¬ StatisticsExact openEnv oddLine ∧
    (match parseStat openEnv (ascii "RIPE") noTables oddLine with
      | .ret t' => shown t'.networks
      | .exc _ => []) = [([10, 0, 0, 0], 23, some (ascii "DE"))] := by
  refine ⟨fun h => ?_, by decide +kernel⟩
  have hs : StatAbout openEnv oddLine (ascii "DE") (ascii "ipv4") (ascii "10.0.0.0") 768 := statAbout_iff.mp (by decide +kernel)
  have hd : Denotes (ascii "10.0.0.0") (ip4 10 0 0 0) := denotes_iff.mpr ⟨.inet, by decide +kernel⟩
  have hl : LargestPrefix (ascii "10.0.0.0") 32 := (parseText_largest (a := ip4 10 0 0 0) (f := .inet) (by decide +kernel) _).mpr rfl
  have hn : newNetwork (ip4 10 0 0 0) 23 = .ok (mk4 (ip4 10 0 0 0) (ip4 10 0 1 255) 23) := by decide +kernel
  have hr : StatRow openEnv oddLine (mk4 (ip4 10 0 0 0) (ip4 10 0 1 255) 23) (ascii "DE") := by
    refine ⟨_, _, _, _, 32, 23, hs, hd, hl, by omega, ?_, hn, rfl, by decide +kernel, by decide +kernel⟩
    rw [if_pos rfl]
    exact ⟨9, rfl, by decide, by decide⟩
  have := (h _ _ _ _ _ _ hr hs hd (by decide +kernel) (ip4 10 0 2 0)).mpr (by decide +kernel)
  revert this
  decide +kernel

/-- A line about 0 addresses ends the import of the source. -/
theorem statistics_zero : parseStat openEnv (ascii "RIPE") noTables (ascii "ripencc|DE|ipv4|10.0.0.0|0|20200101|allocated") = .exc .value := by
  decide +kernel

/-! ## C68 -/

/-- An object about networks: every network that it registers is stored with its country, in place of what was stored about it;
    nothing else changes.  Otherwise the object is faulty. -/
theorem object_networks {e : WhoisEnv} {source : CStr} {t : WhoisTables} {block : List Bytes} (ho : ObjectOf "inetnum" block ∨ ObjectOf "inet6num" block)
    (hsep : RangesSeparate block) :
    (∃ t', parseBlock e source t block = .ret t' ∧
      (∀ n c, (n, c) ∈ t'.rirdata ↔ Registers e block n c ∨ ((∀ c', ¬ Registers e block n c') ∧ (n, c) ∈ t.rirdata)) ∧
      t'.networks = t.networks ∧ t'.autnums = t.autnums ∧ (∀ x, x ∈ t'.tmpAutnums ↔ x ∈ t.tmpAutnums) ∧ ∀ x, x ∈ t'.tmpOrgs ↔ x ∈ t.tmpOrgs) ∨
    (∃ x, parseBlock e source t block = .exc x ∧ FaultyNetwork block) := by
  have hne : block ≠ [] := by
    rintro rfl
    rcases ho with h | h <;> exact absurd h objectOf_nil
  obtain ⟨n1, n2, n3, n4⟩ := no58
  have ha : ¬ ObjectOf "aut-num" block := by
    intro h
    rcases ho with ho | ho
    · exact absurd (objectOf_same n1 n3 ho h) (by decide)
    · exact absurd (objectOf_same n2 n3 ho h) (by decide)
  have hg : ¬ ObjectOf "organisation" block := by
    intro h
    rcases ho with ho | ho
    · exact absurd (objectOf_same n1 n4 ho h) (by decide)
    · exact absurd (objectOf_same n2 n4 ho h) (by decide)
  rcases parseBlock_cases (e := e) (source := source) (t := t) hne hsep with ⟨t', h1, h2⟩ | ⟨x, h1, h2 | h2⟩
  · refine .inl ⟨t', h1, h2.rirdata, h2.networks, h2.autnums, fun x => ?_, fun x => ?_⟩
    · rw [show x = (x.1, x.2) from rfl, h2.tmpAutnums]
      exact ⟨fun h => h.elim (fun h => absurd h.1 ha) fun h => h.2, fun h => .inr ⟨fun _ h => ha h.1, h⟩⟩
    · rw [show x = (x.1, x.2) from rfl, h2.tmpOrgs]
      exact ⟨fun h => h.elim (fun h => absurd h.1 hg) fun h => h.2.elim id fun h => absurd h.2.1 ha,
        fun h => .inr ⟨fun _ h => hg h.1, .inl h⟩⟩
  · exact .inr ⟨x, h1, h2⟩
  · rcases h2 with ⟨k, hd, h2, -⟩ | ⟨h2, -⟩
    · exact absurd h2.1 ha
    · exact absurd h2 hg

/-- The largest networks in a range make up the range, and none of them overlap. -/
theorem range_networks {a b : Addr} (hf : OneFamily a b) (hle : value a ≤ value b) :
    (∃ ns : List Network, (∀ n, n ∈ ns ↔ LargestIn a b n) ∧ ns.Pairwise fun m n => value m.last < value n.first) ∧
    ∀ x, (∃ n, LargestIn a b n ∧ Contains n x) ↔ value a ≤ value x ∧ value x ≤ value b := by
  obtain ⟨ns, -, h1, h2, h3⟩ := summarizeRange_ret hf hle
  refine ⟨⟨ns, h1, h2⟩, fun x => ⟨?_, ?_⟩⟩
  · rintro ⟨n, ⟨-, ⟨g1, g2⟩, -⟩, g3, g4⟩
    omega
  · rintro ⟨g1, g2⟩
    obtain ⟨n, g3, g4⟩ := h3 x g1 g2
    exact ⟨n, (h1 n).mp g3, g4⟩

/-- An object about the range from `a` to `b` registers its first country for exactly these addresses, if the networks are
    acceptable. -/
theorem object_range {e : WhoisEnv} {block : List Bytes} {attrs : List (Bytes × Bytes)} {v : Bytes} {a b : Addr} {c : Option CStr}
    (ho : ObjectOf "inetnum" block) (ha : Attributes block attrs) (hname : ∀ w, (ascii "netname", w) ∈ attrs → ¬ Historic w)
    (h6 : NoAttr attrs "inet6num") (hv : ∀ w, (ascii "inetnum", w) ∈ attrs ↔ w = v) (hab : NamesRange v a b) (hle : value a ≤ value b)
    (hf : OneFamily a b) (hok : ∀ n, LargestIn a b n → Acceptable e n) (hc : FirstCountry e attrs c) :
    (∀ x, (∃ n, Registers e block n c ∧ Contains n x) ↔ value a ≤ value x ∧ value x ≤ value b) ∧
    ∀ n c', Registers e block n c' → c' = c := by
  rw [attributes_iff] at ha
  subst ha
  have hlast : LastAttr (block.map splitLine) "inetnum" v := by
    rcases noAttr_or_last (block.map splitLine) "inetnum" with h | ⟨w, h⟩
    · exact absurd rfl (h _ ((hv v).mpr rfl))
    · rw [(hv w).mp (lastAttr_mem h)] at h
      exact h
  have hreg : ∀ n, LargestIn a b n → Registers e block n c := fun n hn =>
    registers_iff.mpr ⟨.inl ho, hname, fun w hw => ⟨a, b, by rw [(hv w).mp hw]; exact hab⟩, .inr ⟨h6, v, a, b, hlast, hab, hn⟩, hok n hn, hc⟩
  refine ⟨fun x => ?_, fun n c' h => ?_⟩
  · rw [← (range_networks hf hle).2 x]
    constructor
    · rintro ⟨n, h, hx⟩
      obtain ⟨-, -, -, ⟨w, h1, -⟩ | ⟨-, w, a', b', h1, h2, h3⟩, -⟩ := registers_iff.mp h
      · exact absurd h1 (noAttr_not_last h6)
      · obtain rfl := lastAttr_unique hlast h1
        obtain ⟨rfl, rfl⟩ := namesRange_unique hab h2
        exact ⟨n, h3, hx⟩
    · rintro ⟨n, h, hx⟩
      exact ⟨n, hreg n h, hx⟩
  · have h' := (registers_iff.mp h).2.2.2.2.2
    rw [firstCountry_iff] at h' hc
    rw [← h', ← hc]

/-- 10.0.0.0 - 10.0.2.255 in DE -/
def rangeObject : List Bytes := [ascii "inetnum:        10.0.0.0 - 10.0.2.255", ascii "country:        ZZ", ascii "country:        de"]

theorem rangeObject_attrs : rangeObject.map splitLine =
    [(ascii "inetnum", ascii "10.0.0.0 - 10.0.2.255"), (ascii "country", ascii "ZZ"), (ascii "country", ascii "de")] := by decide +kernel

theorem rangeObject_range : NamesRange (ascii "10.0.0.0 - 10.0.2.255") (ip4 10 0 0 0) (ip4 10 0 2 255) :=
  inetRange_iff.mp (by decide +kernel)

/-- In the open environment everything is acceptable that lies in a range of IPv4 which has less than 2 ^ 25 addresses. -/
theorem acceptable_small {a b : Addr} (ha : IsV4 a) (hb : IsV4 b) (h0 : 0xffff * 2 ^ 32 < value a) (hs : value b < value a + 2 ^ 25) : ∀ n, LargestIn a b n → Acceptable openEnv n := by
  rintro n ⟨h1, ⟨h2, h3⟩, -⟩
  have hblk := bare_block h1
  have hl := hblk.last_eq
  have hpos := Nat.two_pow_pos (128 - n.pfx)
  rw [v4_range] at ha hb
  have hv : IsV4 n.first := by
    rw [v4_range]
    omega
  refine ⟨rfl, ?_, ?_⟩
  · rintro ⟨hz, -⟩
    rw [allZeroes_iff_value] at hz
    unfold famMin at hz
    rw [if_pos hv] at hz
    omega
  · rw [if_pos hv]
    apply Classical.byContradiction
    intro hlt
    have : 2 ^ 25 < 2 ^ (128 - n.pfx) := Nat.pow_lt_pow_right (by omega) (by omega)
    omega

/-- The sample meets the hypotheses. -/
example : ∀ x, (∃ n, Registers openEnv rangeObject n (some (ascii "DE")) ∧ Contains n x) ↔
    value (ip4 10 0 0 0) ≤ value x ∧ value x ≤ value (ip4 10 0 2 255) := by
  have hv4 : IsV4 (ip4 10 0 0 0) ∧ IsV4 (ip4 10 0 2 255) := by decide +kernel
  refine (object_range (v := ascii "10.0.0.0 - 10.0.2.255") ⟨_, _, rfl⟩ (attributes_iff.mpr rangeObject_attrs.symm) ?_ ?_ ?_ rangeObject_range
    (by decide +kernel) (.inl hv4) (acceptable_small hv4.1 hv4.2 (by decide +kernel) (by decide +kernel)) (firstCountry_iff.mpr (by decide +kernel))).1
  · intro w hw
    simp only [List.mem_cons, List.not_mem_nil, or_false, Prod.mk.injEq] at hw
    rcases hw with ⟨h, -⟩ | ⟨h, -⟩ | ⟨h, -⟩ <;> exact absurd h (by decide)
  · intro x hx
    simp only [List.mem_cons, List.not_mem_nil, or_false] at hx
    rcases hx with rfl | rfl | rfl <;> decide
  · intro w
    simp only [List.mem_cons, List.not_mem_nil, or_false, Prod.mk.injEq]
    constructor
    · rintro (⟨-, h⟩ | ⟨h, -⟩ | ⟨h, -⟩)
      · exact h
      · exact absurd h (by decide)
      · exact absurd h (by decide)
    · exact fun h => .inl ⟨trivial, h⟩

/-- Faulty objects end the import of the source: a range whose ends are in the wrong order, an IPv6 network that is none, an
    incomplete address without a prefix length. -/
theorem object_faults : parseBlock openEnv [] noTables [ascii "inetnum: 10.0.0.9 - 10.0.0.1"] = .exc .value ∧
    parseBlock openEnv [] noTables [ascii "inet6num: 2001:db8::/129"] = .exc .value ∧
    parseBlock openEnv [] noTables [ascii "inetnum: 10.1"] = .exc .index := by
  refine ⟨?_, ?_, ?_⟩ <;> decide +kernel

/-! ## C69 and C70 -/

theorem trimmed_all : ∀ lines : List Bytes, List.Forall₂ EndTrimmed lines (lines.map pyRstrip)
  | [] => .nil
  | _ :: lines => .cons (endTrimmed_iff.mpr rfl) (trimmed_all lines)

/-- Every file has parts. -/
theorem parts_exist : ∀ feeds : List WhoisFeed, ∃ parts, PartsOf feeds parts
  | [] => ⟨[], .nil⟩
  | .standard file :: feeds => by
    obtain ⟨ps, h⟩ := parts_exist feeds
    exact ⟨_, .standard (isLines_exists file) ((blocks_of_file (isLines_exists file) _).mp rfl) h⟩
  | .extended file :: feeds => by
    obtain ⟨ps, h⟩ := parts_exist feeds
    refine ⟨_, .extended (ls := (fileLines file).map pyRstrip) (isLines_exists file) ?_ h⟩
    exact trimmed_all _
  | .arin lines :: feeds => by
    obtain ⟨ps, h⟩ := parts_exist feeds
    exact ⟨_, .arin h⟩

section
variable {e : WhoisEnv} {source : CStr} {feeds : List WhoisFeed} {parts : List Part} {t t' : WhoisTables}

theorem processSource_read (hp : PartsOf feeds parts) (hsep : ∀ ts, .block ts ∈ parts → RangesSeparate ts) (hut : UniqueNetworks t.networks)
    (h : processSource e source feeds t = .ret t') : ∃ t1, SourceRead e source parts t t1 ∧
      t'.networks = copyNetworks source t1.rirdata t1.networks ∧ t'.autnums = joinAutnums source t1.tmpAutnums t1.tmpOrgs t1.autnums := by
  unfold processSource at h
  cases hr : eachPart (importFeed e source) (startSource source t) feeds with
  | exc x => rw [hr] at h; cases h
  | ret t1 =>
    rw [hr] at h
    cases h
    exact ⟨t1, sourceRead hp hsep hut hr, rfl, rfl⟩

/-- A source without faulty parts is processed. -/
theorem source_processed (hp : PartsOf feeds parts) (hsep : ∀ ts, .block ts ∈ parts → RangesSeparate ts) (hok : ∀ p ∈ parts, ¬ FaultyPart e p) :
    ∃ t', processSource e source feeds t = .ret t' := by
  unfold processSource
  cases hr : eachPart (importFeed e source) (startSource source t) feeds with
  | exc x =>
    obtain ⟨p, h1, h2⟩ := sourceRead_exc hp hsep hr
    exact absurd h2 (hok p h1)
  | ret t1 => exact ⟨_, rfl⟩

/-- The names of ASes after a source was processed -/
theorem source_names (hp : PartsOf feeds parts) (hsep : ∀ ts, .block ts ∈ parts → RangesSeparate ts) (hut : UniqueNetworks t.networks)
    (h : processSource e source feeds t = .ret t') (k : Nat) (name : CStr) :
    (∃ s, (k, name, s) ∈ t'.autnums) ↔ NameAfter source parts t.autnums k name := by
  obtain ⟨t1, hr, -, h2⟩ := processSource_read hp hsep hut h
  obtain ⟨-, k2, k3, -⟩ := hr.keys
  rw [h2, joinAutnums_mem k3 _ k2]
  have hname : ∀ name, (∃ hd, (k, hd) ∈ t1.tmpAutnums ∧ (hd, name) ∈ t1.tmpOrgs) ↔ AsName parts k name := by
    intro name
    unfold AsName
    simp only [hr.owned, hr.orgs]
  simp only [hname]
  unfold NameAfter
  rw [show (∃ s, (k, name, s) ∈ t1.autnums) ↔ _ from hr.names k name]

/-- Every entry after a source was processed is known, and entries from other places are all there. -/
theorem source_entries (hp : PartsOf feeds parts) (hsep : Separate e parts) (hut : UniqueNetworks t.networks)
    (h : processSource e source feeds t = .ret t') (n : Network) (c : Option CStr) :
    (Given e source parts t.networks n c → ∃ s, (n, c, s) ∈ t'.networks) ∧ ((∃ s, (n, c, s) ∈ t'.networks) → Known e source parts t.networks n c) := by
  obtain ⟨t1, hr, h1, -⟩ := processSource_read hp hsep.1 hut h
  have hi : ∀ x ∈ t1.rirdata, InetValue x.1 := by
    rintro ⟨m, d⟩ hx
    obtain ⟨p, g1, g2⟩ := lastSays_mem ((hr.rirdata m d).mp hx)
    exact hsep.2.1 p g1 m d g2
  obtain ⟨g1, g2⟩ := copied_entries (source := source) (t := t1.networks) hr.keys.1 hi
  rw [h1]
  constructor
  · intro hg
    obtain ⟨s, hs⟩ := (hr.networks n c).mpr hg
    exact ⟨s, g1 _ hs⟩
  · rintro ⟨s, hs⟩
    rcases g2 n c s hs with hs | ⟨hs, -, hno⟩
    · exact .inl ((hr.networks n c).mp ⟨s, hs⟩)
    · refine .inr ⟨(hr.rirdata n c).mp hs, fun c' hc => ?_⟩
      obtain ⟨s', hs'⟩ := (hr.networks n c').mpr hc
      exact hno c' (List.mem_map.mpr ⟨_, hs', rfl⟩)

/-- The full claim: the country of every address is that of the most specific network with a country among everything that is
    known. -/
def SourceCountries (e : WhoisEnv) (source : CStr) (parts : List Part) (t t' : WhoisTables) : Prop :=
  ∀ a y, SaysAt (countriesIn t'.networks) a y → CountryAt (Known e source parts t.networks) a y.join

theorem statRow_bare {line : Bytes} {n : Network} {cc : CStr} (h : StatRow e line n cc) : BareNetwork n := by
  obtain ⟨-, -, -, a, -, p, -, -, -, -, -, h, -⟩ := h
  exact ⟨a, p, h⟩

theorem countryAt_congr {E E' : Network → Option CStr → Prop} (h : ∀ n c, E n c ↔ E' n c) {a : Addr} {x : Option CStr} (hx : CountryAt E a x) :
    CountryAt E' a x := by
  have : E = E' := funext fun n => funext fun c => propext (h n c)
  rw [← this]
  exact hx

/-- The countries of all addresses after a source was processed.  Missing: entries without a country which are stored
    nevertheless and lie inside of an entry with a country (where it does not hold, see `source_countries_violated`), and
    IPv6 networks around the IPv4-mapped addresses. -/
theorem source_countries_partial (hp : PartsOf feeds parts) (hsep : Separate e parts) (hut : UniqueNetworks t.networks)
    (hit : ∀ x ∈ t.networks, InetValue x.1)
    (hnull : ∀ n, Unnamed e source parts t.networks n → ∀ m cc, Known e source parts t.networks m (some cc) → ¬ StrictlyInside n m)
    (h : processSource e source feeds t = .ret t') : SourceCountries e source parts t t' := by
  obtain ⟨t1, hr, h1, -⟩ := processSource_read hp hsep.1 hut h
  have hi : ∀ x ∈ t1.rirdata, InetValue x.1 := by
    rintro ⟨m, d⟩ hx
    obtain ⟨p, g1, g2⟩ := lastSays_mem ((hr.rirdata m d).mp hx)
    exact hsep.2.1 p g1 m d g2
  have hgiven : ∀ n c, (n, c) ∈ countriesIn t1.networks ↔ Given e source parts t.networks n c := by
    intro n c
    rw [← hr.networks]
    constructor
    · intro hm
      obtain ⟨⟨n', c', s⟩, hz, he⟩ := List.mem_map.mp hm
      cases he
      exact ⟨s, hz⟩
    · rintro ⟨s, hs⟩
      exact List.mem_map.mpr ⟨_, hs, rfl⟩
  have hi1 : ∀ x ∈ t1.networks, InetValue x.1 := by
    rintro ⟨m, d, s⟩ hx
    rcases (hr.networks m d).mp ⟨s, hx⟩ with ⟨cc, hl, -⟩ | ⟨-, s', hs, -⟩
    · obtain ⟨p, g1, g2⟩ := lastSays_mem hl
      exact hsep.2.2 p g1 m cc g2
    · exact hit (m, d, s') hs
  have hknown : ∀ n c, InEither (countriesIn t1.networks) t1.rirdata n c ↔ Known e source parts t.networks n c := by
    intro n c
    unfold InEither Known
    simp only [hgiven, hr.rirdata]
  intro a y hy
  rw [h1] at hy
  refine countryAt_congr hknown (copied_countries_partial (source := source) hr.keys.1 hr.keys.2.2.2 hi hi1 ?_ a y hy)
  intro n hn m cc hm
  refine hnull n ?_ m cc ((hknown m _).mp hm)
  rcases hn with hn | ⟨hn, hl⟩
  · exact .inl ((hgiven n none).mp hn)
  · exact .inr ⟨(hr.rirdata n none).mp hn, fun m c hm hf => hl (m, c) ((hr.rirdata m c).mpr hm) hf⟩

end

/-- A source either takes effect as a whole or not at all: the tables after all sources are those after processing some of the
    sources, one after another, and the result says whether these were all. -/
theorem update_whole (e : WhoisEnv) : ∀ (sources : List (CStr × Option (List WhoisFeed))) (t : WhoisTables) (success : Bool),
    ∃ done : List (CStr × List WhoisFeed), (done.map fun x => (x.1, some x.2)).Sublist sources ∧
      Processed e done t (updateSources e sources (t, success)).1 ∧
      ((updateSources e sources (t, success)).2 = true ↔ success = true ∧ (done.map fun x => (x.1, some x.2)) = sources)
  | [], t, success => ⟨[], .slnil, .nil, by simp [updateSources]⟩
  | (source, none) :: rest, t, success => by
    obtain ⟨done, h1, h2, h3⟩ := update_whole e rest t false
    refine ⟨done, h1.cons _, h2, ?_⟩
    show (updateSources e rest (t, false)).2 = true ↔ _
    rw [h3]
    constructor
    · rintro ⟨h, -⟩
      cases h
    · rintro ⟨-, h⟩
      have := h1.length_le
      rw [h, List.length_cons] at this
      omega
  | (source, some feeds) :: rest, t, success => by
    cases hp : processSource e source feeds t with
    | exc x =>
      obtain ⟨done, h1, h2, h3⟩ := update_whole e rest t false
      have he : updateSources e ((source, some feeds) :: rest) (t, success) = updateSources e rest (t, false) := by
        simp only [updateSources, hp]
      rw [he]
      refine ⟨done, h1.cons _, h2, ?_⟩
      rw [h3]
      constructor
      · rintro ⟨h, -⟩
        cases h
      · rintro ⟨-, h⟩
        have := h1.length_le
        rw [h, List.length_cons] at this
        omega
    | ret t1 =>
      obtain ⟨done, h1, h2, h3⟩ := update_whole e rest t1 success
      have he : updateSources e ((source, some feeds) :: rest) (t, success) = updateSources e rest (t1, success) := by
        simp only [updateSources, hp]
      rw [he]
      refine ⟨(source, feeds) :: done, h1.cons_cons _, .cons hp h2, ?_⟩
      rw [h3]
      simp

/-- Which sources take effect is not up to chance: those without faulty parts do. -/
theorem update_done (e : WhoisEnv) : ∀ (sources : List (CStr × List WhoisFeed)) (t : WhoisTables),
    (∀ x ∈ sources, ∃ parts, PartsOf x.2 parts ∧ (∀ ts, .block ts ∈ parts → RangesSeparate ts) ∧ ∀ p ∈ parts, ¬ FaultyPart e p) →
    Processed e sources t (updateSources e (sources.map fun x => (x.1, some x.2)) (t, true)).1 ∧
      (updateSources e (sources.map fun x => (x.1, some x.2)) (t, true)).2 = true
  | [], t, _ => ⟨.nil, rfl⟩
  | (source, feeds) :: rest, t, h => by
    obtain ⟨parts, h1, h2, h3⟩ := h _ List.mem_cons_self
    obtain ⟨t1, ht⟩ := source_processed (source := source) (t := t) h1 h2 h3
    obtain ⟨g1, g2⟩ := update_done e rest t1 fun x hx => h x (List.mem_cons_of_mem _ hx)
    have he : updateSources e (((source, feeds) :: rest).map fun x => (x.1, some x.2)) (t, true) =
        updateSources e (rest.map fun x => (x.1, some x.2)) (t1, true) := by
      simp only [List.map_cons, updateSources, ht]
    rw [he]
    exact ⟨.cons ht g1, g2⟩

/-! ### A sample -/

/-- 2001:db8::/32 -/
def net2001_32 : Network :=
  ⟨.inet6, #v[0x20,1,0xd,0xb8,0,0,0,0,0,0,0,0,0,0,0,0], #v[0x20,1,0xd,0xb8,255,255,255,255,255,255,255,255,255,255,255,255], 32, 0, 0, 0, 0⟩
/-- 2001:db8:1::/48 -/
def net2001_48 : Network :=
  ⟨.inet6, #v[0x20,1,0xd,0xb8,0,1,0,0,0,0,0,0,0,0,0,0], #v[0x20,1,0xd,0xb8,0,1,255,255,255,255,255,255,255,255,255,255], 48, 0, 0, 0, 0⟩

theorem inet_sample6 {n : Network} {a : Addr} {p : Nat} (h : newNetwork a p = .ok n) (hf : 0x10000 * 2 ^ 32 ≤ value n.first) : InetValue n := by
  refine ⟨⟨a, p, h⟩, fun _ b hb hv => ?_⟩
  rw [v4_range] at hv
  have := hb.1
  omega

theorem inet2001_32 : InetValue net2001_32 := inet_sample6 (a := net2001_32.first) (p := 32) (by decide +kernel) (by decide +kernel)
theorem inet2001_48 : InetValue net2001_48 := inet_sample6 (a := net2001_48.first) (p := 48) (by decide +kernel) (by decide +kernel)

/-- A network, two autonomous systems and an organisation -/
def ripeFile : Bytes := ascii "inet6num: 2001:db8::/32\ncountry: DE\n\naut-num: AS5\norg: org-a\n\naut-num: AS6\ndescr: Bar\ndescr: Baz\n\norganisation: ORG-A\norg-name: Foo\n"

def ripeNet : List Bytes := [ascii "inet6num: 2001:db8::/32", ascii "country: DE"]
def ripeOthers : List (List Bytes) := [[ascii "aut-num: AS5", ascii "org: org-a"], [ascii "aut-num: AS6", ascii "descr: Bar", ascii "descr: Baz"],
  [ascii "organisation: ORG-A", ascii "org-name: Foo"]]

/-- The line about 10.1.2.0/24 and a line of the list of ARIN -/
def ripeFeeds : List WhoisFeed := [.arin [⟨strFull, ascii "Qux", ascii "6", ascii "7"⟩], .standard ripeFile, .extended (statLine ++ [10])]

def ripeParts : List Part := [.arin ⟨strFull, ascii "Qux", ascii "6", ascii "7"⟩] ++ ((ripeNet :: ripeOthers).map .block ++ ([statLine].map .line ++ []))

/-- 10.0.0.0/8 of another source; AS 5 and AS 9 -/
def ripeBefore : WhoisTables :=
  ⟨[(net10_8p, some (ascii "FR"), ascii "APNIC")], [(5, ascii "Old", ascii "RIPE"), (9, ascii "Nine", ascii "APNIC")], [], [], [], []⟩

theorem ripe_parts : PartsOf ripeFeeds ripeParts := by
  refine .arin (.standard (isLines_exists _) ((blocks_of_file (isLines_exists _) _).mp (by decide +kernel)) (.extended (isLines_exists _) ?_ .nil))
  have h1 : fileLines (statLine ++ [10]) = [statLine ++ [10]] := by decide +kernel
  rw [h1]
  exact .cons (endTrimmed_iff.mpr (by decide +kernel)) .nil

theorem ripe_block {ts : List Bytes} (h : .block ts ∈ ripeParts) : ts = ripeNet ∨ ts ∈ ripeOthers := by
  simp only [ripeParts, List.mem_append, List.mem_map, List.mem_cons, List.not_mem_nil, or_false] at h
  rcases h with h | ⟨x, h, he⟩ | ⟨x, -, he⟩
  · cases h
  · cases he
    exact h
  · cases he

theorem ripeNet_attrs : ripeNet.map splitLine = [(ascii "inet6num", ascii "2001:db8::/32"), (ascii "country", ascii "DE")] := by decide +kernel

theorem ripe_no_network {ts : List Bytes} (h : ts ∈ ripeOthers) : ¬ (ObjectOf "inetnum" ts ∨ ObjectOf "inet6num" ts) := by
  simp only [ripeOthers, List.mem_cons, List.not_mem_nil, or_false] at h
  rcases h with rfl | rfl | rfl <;> (rw [objectOf_iff, objectOf_iff]; decide)

theorem ripe_no_range {ts : List Bytes} (h : .block ts ∈ ripeParts) : RangesSeparate ts := by
  intro attrs ha v a b hm
  rw [attributes_iff] at ha
  subst ha
  exfalso
  have hno : ∀ x ∈ ts.map splitLine, x.1 ≠ ascii "inetnum" := by
    rcases ripe_block h with rfl | h
    · decide +kernel
    · simp only [ripeOthers, List.mem_cons, List.not_mem_nil, or_false] at h
      rcases h with rfl | rfl | rfl <;> decide +kernel
  exact hno _ hm rfl

theorem ripe_registers {p : Part} (hp : p ∈ ripeParts) {n : Network} {c : Option CStr} (h : InBlock (Registers openEnv) p n c) :
    n = net2001_32 ∧ c = some (ascii "DE") := by
  obtain ⟨ts, rfl, h⟩ := h
  rcases ripe_block hp with rfl | hts
  · obtain ⟨-, -, -, ha, -, hc⟩ := registers_iff.mp h
    rw [ripeNet_attrs] at ha
    constructor
    · rcases ha with ⟨v, h1, h2⟩ | ⟨h1, -⟩
      · have := lastAttr_mem h1
        simp only [List.mem_cons, List.not_mem_nil, or_false, Prod.mk.injEq] at this
        rcases this with ⟨-, rfl⟩ | ⟨h, -⟩
        · have hi : ipNetwork (ascii "2001:db8::/32") = some net2001_32 := by decide +kernel
          exact namesNet_unique h2 (ipNetwork_iff.mp hi)
        · exact absurd h (by decide)
      · exact absurd rfl (h1 _ List.mem_cons_self)
    · rw [firstCountry_iff] at hc
      rw [← hc]
      decide +kernel
  · exact absurd h.1 (ripe_no_network hts)

theorem ripe_stat {p : Part} (hp : p ∈ ripeParts) {n : Network} {cc : CStr} (h : InLine (StatRow openEnv) p n cc) : n.family = .inet ∧ BareNetwork n := by
  obtain ⟨s, rfl, h⟩ := h
  simp only [ripeParts, List.mem_append, List.mem_map, List.mem_cons, List.not_mem_nil, or_false] at hp
  rcases hp with hp | ⟨x, -, he⟩ | ⟨x, rfl, he⟩
  · cases hp
  · cases he
  · cases he
    refine ⟨?_, statRow_bare h⟩
    obtain ⟨type, address, i, a, m, q, hs, hd, -, -, -, hn, -⟩ := h
    have hs' : statAbout openEnv statLine = some (ascii "DE", ascii "ipv4", ascii "10.1.2.0", 256) := by decide +kernel
    obtain ⟨-, -, rfl, -⟩ := statAbout_unique (statAbout_iff.mp hs') hs
    obtain ⟨f, hf⟩ := denotes_iff.mp hd
    have : parseText (ascii "10.1.2.0") = some (ip4 10 1 2 0, .inet) := by decide +kernel
    rw [this] at hf
    cases hf
    exact (new_canonical _ _ _ hn).2.1.mpr (by decide +kernel)

theorem ripe_separate : Separate openEnv ripeParts := by
  refine ⟨fun ts h => ripe_no_range h, fun p hp n c h => ?_, fun p hp n cc h => ?_⟩
  · rw [(ripe_registers hp h).1]
    exact inet2001_32
  · obtain ⟨h1, a, q, h2⟩ := ripe_stat hp h
    exact inet_sample h2 h1

theorem ripe_unique : UniqueNetworks ripeBefore.networks := by unfold UniqueNetworks; decide +kernel

/-- The sample meets the hypotheses of the theorems about sources. -/
theorem ripe_result : ∃ t', processSource openEnv (ascii "RIPE") ripeFeeds ripeBefore = .ret t' ∧
    t'.autnums.map (fun x => (x.1, x.2.1)) = [(9, ascii "Nine"), (6, ascii "Bar"), (7, ascii "Qux"), (5, ascii "Foo")] ∧
    (t'.networks.map fun x => (x.1.pfx, x.2.1)) = [(104, some (ascii "FR")), (120, some (ascii "DE")), (32, some (ascii "DE"))] ∧
    SourceCountries openEnv (ascii "RIPE") ripeParts ripeBefore t' := by
  have hres : (match processSource openEnv (ascii "RIPE") ripeFeeds ripeBefore with
      | .ret t' => some (t'.autnums.map (fun x => (x.1, x.2.1)), t'.networks.map fun x => (x.1.pfx, x.2.1))
      | .exc _ => none) = some ([(9, ascii "Nine"), (6, ascii "Bar"), (7, ascii "Qux"), (5, ascii "Foo")],
        [(104, some (ascii "FR")), (120, some (ascii "DE")), (32, some (ascii "DE"))]) := by decide +kernel
  cases h : processSource openEnv (ascii "RIPE") ripeFeeds ripeBefore with
  | exc x => rw [h] at hres; cases hres
  | ret t' =>
    rw [h] at hres
    simp only [Option.some.injEq, Prod.mk.injEq] at hres
    refine ⟨t', rfl, hres.1, hres.2, source_countries_partial ripe_parts ripe_separate ripe_unique ?_ ?_ h⟩
    · intro x hx
      cases List.mem_singleton.mp hx
      exact inet10_8p
    · rintro n ((⟨cc, -, hc⟩ | ⟨-, s, hs, -⟩) | ⟨hn, -⟩)
      · cases hc
      · cases List.mem_singleton.mp hs
      · obtain ⟨p, h1, h2⟩ := lastSays_mem hn
        cases (ripe_registers h1 h2).2

/-- The name of AS 5 comes from its organisation, and that of AS 6 from its description. -/
example : NameAfter (ascii "RIPE") ripeParts ripeBefore.autnums 5 (ascii "Foo") ∧ NameAfter (ascii "RIPE") ripeParts ripeBefore.autnums 6 (ascii "Bar") ∧
    ¬ NameAfter (ascii "RIPE") ripeParts ripeBefore.autnums 5 (ascii "Old") := by
  obtain ⟨t', h, ha, -, -⟩ := ripe_result
  have key : ∀ k name, NameAfter (ascii "RIPE") ripeParts ripeBefore.autnums k name ↔ (k, name) ∈ t'.autnums.map fun x => (x.1, x.2.1) := by
    intro k name
    rw [← source_names ripe_parts ripe_separate.1 ripe_unique h k name, List.mem_map]
    constructor
    · rintro ⟨s, hs⟩
      exact ⟨_, hs, rfl⟩
    · rintro ⟨⟨k', name', s⟩, hs, he⟩
      cases he
      exact ⟨s, hs⟩
  rw [key, key, key, ha]
  decide +kernel

/-- An object without a country -/
def bareFile : Bytes := ascii "inet6num: 2001:db8:1::/48\n"

def bareParts : List Part := [[ascii "inet6num: 2001:db8:1::/48"]].map .block ++ []

def bareBefore : WhoisTables := ⟨[(net2001_32, some (ascii "DE"), ascii "APNIC")], [], [], [], [], []⟩

/-- The claim does not hold in general: 2001:db8::/32 of another source is in DE; the source has an object about 2001:db8:1::/48
    without a country.  Afterwards 2001:db8:1:: has no country. -/
theorem source_countries_violated : PartsOf [.standard bareFile] bareParts ∧ ∃ t', processSource openEnv (ascii "RIPE") [.standard bareFile] bareBefore = .ret t' ∧
    ¬ SourceCountries openEnv (ascii "RIPE") bareParts bareBefore t' := by
  refine ⟨.standard (isLines_exists _) ((blocks_of_file (isLines_exists _) _).mp (by decide +kernel)) .nil, ?_⟩
  have hres : (match processSource openEnv (ascii "RIPE") [.standard bareFile] bareBefore with
      | .ret t' => some t'.networks
      | .exc _ => none) = some [(net2001_32, some (ascii "DE"), ascii "APNIC"), (net2001_48, none, ascii "RIPE")] := by decide +kernel
  cases h : processSource openEnv (ascii "RIPE") [.standard bareFile] bareBefore with
  | exc x => rw [h] at hres; cases hres
  | ret t' =>
    rw [h] at hres
    simp only [Option.some.injEq] at hres
    refine ⟨t', rfl, fun hc => ?_⟩
    have hs : SaysAt (countriesIn t'.networks) net2001_48.first (some none) := by
      rw [hres]
      refine .inl ⟨none, ⟨net2001_48, by simp [countriesIn], by decide +kernel, fun y hy _ => ?_⟩, rfl⟩
      simp only [countriesIn, List.map_cons, List.map_nil, List.mem_cons, List.not_mem_nil, or_false] at hy
      rcases hy with rfl | rfl <;> decide
    rcases hc _ _ hs with ⟨n, cc, -, -, -, hn⟩ | ⟨hn, -⟩
    · cases hn
    · refine hn net2001_32 (ascii "DE") (.inl (.inr ⟨?_, ascii "APNIC", List.mem_singleton.mpr rfl, by decide⟩)) (by decide +kernel)
      rintro p hp v ⟨s, rfl, -⟩
      cases List.mem_singleton.mp hp

/-- One faulty object keeps the whole source out: nothing of the source takes effect, and the result of the command says so. -/
theorem update_faulty : updateSources openEnv [(ascii "RIPE", some [.standard (ripeFile ++ ascii "\ninet6num: none\n")])] (ripeBefore, true) =
    (ripeBefore, false) := by decide +kernel

/-- Sources without faulty parts take effect. -/
example : ∃ t', Processed openEnv [(ascii "RIPE", ripeFeeds)] ripeBefore t' ∧ (updateSources openEnv [(ascii "RIPE", some ripeFeeds)] (ripeBefore, true)) = (t', true) := by
  obtain ⟨t', h, -⟩ := ripe_result
  exact ⟨t', .cons h .nil, by simp only [updateSources, h]⟩

end Loc.Props
