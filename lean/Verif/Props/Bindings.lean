import Verif.Props.Lookup
import Verif.Props.Text
import Verif.Props.Network
import Verif.Spec.Bindings
/-
The language bindings: C54 (questions from Python), C56 (Lua and Perl), C57 (writing from Python).
-/
namespace Loc.Props
open Loc Loc.Spec

/-! ## Arguments -/

theorem argStr_ret {s : Bytes} (h : (0 : Byte) ∉ s) : argStr s = .ret s := by
  unfold argStr
  rw [if_neg (by simpa using h)]

theorem argStr_exc {s : Bytes} (h : (0 : Byte) ∈ s) : argStr s = .exc .value := by
  unfold argStr
  rw [if_pos (by simpa using h)]

theorem argInt_ret {n : Nat} (h : n < 2 ^ 31) : argInt n = .ret (BitVec.ofNat 32 n) := by
  unfold argInt
  rw [if_neg (by omega)]
  congr 1

theorem argInt_overflow {n : Int} (h : 2 ^ 31 ≤ n) : argInt n = .exc .overflow := by
  unfold argInt
  rw [if_pos (.inr h)]

theorem validCC_no_nul {s : CStr} (h : ValidCC s) : (0 : Byte) ∉ s := by
  obtain ⟨c0, c1, rfl, h1, -, h2, -⟩ := h
  intro hm
  rcases List.mem_cons.mp hm with rfl | hm
  · simp at h1
  · rcases List.mem_cons.mp hm with rfl | hm
    · simp at h2
    · cases hm

theorem getCountry_invalid (db : Db) {s : CStr} (h : ¬ ValidCC s) : getCountry db (some s) = .ok .failed := by
  unfold getCountry
  have : ccIsValid (some s) = false := by
    rw [Bool.eq_false_iff]; exact fun h' => h ((ccIsValid_iff s).mp h')
  rw [this]
  rfl

/-! ## C54 -/

/-- The full claim about asking for an AS. -/
def PyAnswersAs {K : Type} (ops : List (WOp K)) (db : Db) : Prop :=
  ∀ n : Nat, n < 2 ^ 32 → pyGetAs db n = .ok (.ret (KnownAs ops n))

/-- `db.get_as(n)` gives the AS that was added with its name, or `None`.  Missing from the full claim: numbers from 2^31
    on. -/
theorem py_get_as_partial {K : Type} {ctz0 : Nat} (h0 : 8 ≤ ctz0) {key1 key2 : Option K} {ops : List (WOp K)} {e : WEnv K}
    {w : Writer K} {f : Bytes} (h : Written ctz0 key1 key2 ops e w f) {db : Db} (ho : dbOpen f = .ok db) (n : Nat) (hn : n < 2 ^ 31) :
    pyGetAs db n = .ok (.ret (KnownAs ops n)) := by
  obtain ⟨db', ho', hr⟩ := as_roundtrip h0 h
  rw [ho] at ho'
  cases ho'
  unfold pyGetAs KnownAs
  rw [argInt_ret hn]
  simp only
  rw [hr]
  cases asesOf ops (BitVec.ofNat 32 n) with
  | none => rfl
  | some x => cases x <;> rfl

/-- The number 2147483648 with a name -/
def bigAsOps : List (WOp Unit) := [.addAs 0x80000000#32 (some [88])]

theorem bigAs_written : ∃ w f, Written 32 none none bigAsOps demoEnv w f := by
  obtain ⟨w, f, h, -⟩ := outcome_exists (e := demoEnv) (ops := bigAsOps) rfl (by
    intro op h
    simp only [bigAsOps, List.mem_singleton] at h
    subst h
    rintro x ⟨⟩
    decide) (by decide +kernel)
  exact ⟨w, f, h⟩

/-- C54 violated: numbers from 2^31 on raise an `OverflowError`, whatever the database contains; so AS2147483648, which
    was written and which the library finds, cannot be asked for. -/
theorem py_get_as_violated : (∀ (db : Db) (n : Int), 2 ^ 31 ≤ n → pyGetAs db n = .ok (.exc .overflow)) ∧
    ∃ w f db, Written 32 none none bigAsOps demoEnv w f ∧ dbOpen f = .ok db ∧
      getAs db 0x80000000#32 = .ok (some ⟨0x80000000#32, some [88]⟩) ∧ ¬ PyAnswersAs bigAsOps db := by
  have h1 : ∀ (db : Db) (n : Int), 2 ^ 31 ≤ n → pyGetAs db n = .ok (.exc .overflow) := by
    intro db n hn
    unfold pyGetAs
    rw [argInt_overflow hn]
  refine ⟨h1, ?_⟩
  obtain ⟨w, f, h⟩ := bigAs_written
  obtain ⟨db, ho, hr⟩ := as_roundtrip (by decide) h
  refine ⟨w, f, db, h, ho, ?_, ?_⟩
  · rw [hr]
    rfl
  · intro hp
    have h2 := hp (2 ^ 31) (by decide)
    rw [h1 db _ (by decide)] at h2
    cases h2

/-- Negative numbers are not refused; they are taken modulo 2^32: `get_as(-1)` asks for AS4294967295. -/
theorem py_get_as_negative (db : Db) (n : Nat) (h1 : 1 ≤ n) (h2 : n ≤ 2 ^ 31) {r : Option AS}
    (hr : getAs db (BitVec.ofNat 32 (2 ^ 32 - n)) = .ok r) : pyGetAs db (-(n : Int)) = .ok (.ret r) := by
  have hb : BitVec.ofInt 32 (-(n : Int)) = BitVec.ofNat 32 (2 ^ 32 - n) := by
    apply BitVec.eq_of_toNat_eq
    rw [BitVec.toNat_ofInt, BitVec.toNat_ofNat]
    omega
  unfold pyGetAs argInt
  rw [if_neg (by omega)]
  simp only
  rw [hb, hr]

/-- `db.get_country(code)`: anything that is no country code raises a `ValueError`. -/
theorem py_get_country_refuses (db : Db) (s : Bytes) (h : ¬ ValidCC s) : pyGetCountry db s = .ok (.exc .value) := by
  unfold pyGetCountry
  by_cases h0 : (0 : Byte) ∈ s
  · rw [argStr_exc h0]
  · rw [argStr_ret h0]
    simp only
    rw [getCountry_invalid db h]
    have : ccIsValid (some s) = false := by
      rw [Bool.eq_false_iff]; exact fun h' => h ((ccIsValid_iff s).mp h')
    simp [this]

/-- `db.get_country(code)` gives the country that was added, or `None`.  Missing from the full claim: as in C24,
    histories that do not add the countries in alphabetical order or add some without a continent. -/
theorem py_get_country_partial {K : Type} {ctz0 : Nat} (h0 : 8 ≤ ctz0) {key1 key2 : Option K} {ops : List (WOp K)} {e : WEnv K}
    {w : Writer K} {f : Bytes} (h : Written ctz0 key1 key2 ops e w f) {db : Db} (ho : dbOpen f = .ok db)
    (horder : (codesAdded ops).Pairwise (fun a b => codeNumber a ≤ codeNumber b))
    (hcont : ∀ code continent name, countriesOf ops code = some (continent, name) → continent ≠ none)
    (s : Bytes) (hs : ValidCC s) : ∃ r, pyGetCountry db s = .ok (.ret r) ∧ IsCountry ops s r := by
  obtain ⟨db', ho', hr⟩ := country_roundtrip_partial h0 h horder hcont
  rw [ho] at ho'
  cases ho'
  have hc := hr s hs
  unfold pyGetCountry
  rw [argStr_ret (validCC_no_nul hs)]
  unfold CountryRoundTrip at hc
  unfold IsCountry
  cases hk : countriesOf ops s with
  | none =>
    rw [hk] at hc
    simp only at hc ⊢
    rw [hc]
    exact ⟨none, rfl, rfl⟩
  | some p =>
    obtain ⟨continent, name⟩ := p
    rw [hk] at hc
    simp only at hc ⊢
    obtain ⟨c, h1, h2⟩ := hc
    rw [h1]
    exact ⟨some c, rfl, c, rfl, h2⟩

/-- A written database never makes `db.get_country` fail, and what it returns was added under this code. -/
theorem py_get_country_sound {K : Type} {ctz0 : Nat} (h0 : 8 ≤ ctz0) {key1 key2 : Option K} {ops : List (WOp K)} {e : WEnv K}
    {w : Writer K} {f : Bytes} (h : Written ctz0 key1 key2 ops e w f) {db : Db} (ho : dbOpen f = .ok db)
    (s : Bytes) (hs : ValidCC s) : ∃ r, pyGetCountry db s = .ok (.ret r) ∧
      ∀ c, r = some c → ∃ continent name, countriesOf ops s = some (continent, name) ∧ countryGetCode c = s ∧ c.name = some (name.getD []) := by
  obtain ⟨db', ho', hr⟩ := country_sound h0 h
  rw [ho] at ho'
  cases ho'
  unfold pyGetCountry
  rw [argStr_ret (validCC_no_nul hs)]
  simp only
  rcases hr s hs with h1 | ⟨c, continent, name, h1, h2, h3, h4, -⟩
  · rw [h1]
    exact ⟨none, rfl, fun c hc => by cases hc⟩
  · rw [h1]
    exact ⟨some c, rfl, fun c' hc => by cases hc; exact ⟨continent, name, h2, h3, h4⟩⟩

theorem lookupFromString_ok (db : Db) {s : CStr} {a : Addr} (ha : Denotes (beforeSlash s) a) {r : LookupOut} (hr : lookup db a = .ok r) :
    lookupFromString db s = .ok (some r) := by
  unfold lookupFromString
  rw [(parse_accepts_iff s a).mpr ha]
  simp only
  rw [hr]

theorem lookupFromString_invalid (db : Db) {s : CStr} (ha : ∀ a, ¬ Denotes (beforeSlash s) a) : lookupFromString db s = .ok none := by
  unfold lookupFromString
  rw [(parse_refuses false (some s)).2.1 s rfl ha]

/-- `db.lookup(text)` of an address gives what the library finds for this address (C15, C16), for every address that is
    not stored as a network of its own.  Missing from the full claim: those addresses, for which the library reads
    behind its buffer (C18), and texts that denote no address (`py_lookup_violated`). -/
theorem py_lookup_partial {K : Type} {ctz0 : Nat} (h0 : 8 ≤ ctz0) {key1 key2 : Option K} {ops : List (WOp K)} {e : WEnv K}
    {w : Writer K} {f : Bytes} (h : Written ctz0 key1 key2 ops e w f) {db : Db} (ho : dbOpen f = .ok db) (s : Bytes) (hs : (0 : Byte) ∉ s)
    {a : Addr} (ha : Denotes (beforeSlash s) a) (hn : ¬ StoredHost (· ∈ w.networks.networks) a) :
    ∃ r, pyLookup db s = .ok (.ret r) ∧ lookup db a = .ok (.ok r) ∧
      (r.isSome ↔ ∃ k, LastOnPath (· ∈ w.networks.networks) a k ∧ ¬ (k.pfx = 95 ∧ IsV4 a)) ∧
      (∀ m, r = some m → Contains m a ∧ ∃ k, MostSpecific (· ∈ w.networks.networks) a k ∧ SameBlock m k ∧
        props m = ((props k).1, k.asn, BitVec.ofNat 32 (k.flags.toNat % 2 ^ 16))) := by
  obtain ⟨r, h1, h2, -⟩ := lookup_exact h0 h ho hn
  refine ⟨r, ?_, h1, h2, ?_⟩
  · unfold pyLookup
    rw [argStr_ret hs]
    simp only
    rw [lookupFromString_ok db ha h1]
  · rintro m rfl
    exact (lookup_sound h0 h ho h1).2

/-- C54 violated: for a text that denotes no address (and contains no NUL), the `ValueError` that the function prepares is
    replaced by an `OSError`, in every database. -/
theorem py_lookup_violated (db : Db) (s : Bytes) (hs : (0 : Byte) ∉ s) (ha : ∀ a, ¬ Denotes (beforeSlash s) a) :
    pyLookup db s = .ok (.exc .os) := by
  unfold pyLookup
  rw [argStr_ret hs]
  simp only
  rw [lookupFromString_invalid db ha]

/-- "example.org" is such a text. -/
def exampleOrg : Bytes := [101, 120, 97, 109, 112, 108, 101, 46, 111, 114, 103]

theorem exampleOrg_invalid : (0 : Byte) ∉ exampleOrg ∧ ∀ a, ¬ Denotes (beforeSlash exampleOrg) a := by
  refine ⟨by decide, fun a ha => ?_⟩
  have := (parse_accepts_iff exampleOrg a).mpr ha
  have h2 : addressParse false (some exampleOrg) = .error (.err EINVAL) := by decide +kernel
  rw [h2] at this
  cases this

example (db : Db) : pyLookup db exampleOrg = .ok (.exc .os) :=
  py_lookup_violated db exampleOrg exampleOrg_invalid.1 exampleOrg_invalid.2

/-- In the example database, "10.1.2.3" meets the hypotheses of `py_lookup_partial`. -/
def text10 : Bytes := [49, 48, 46, 49, 46, 50, 46, 51]

theorem text10_denotes : (0 : Byte) ∉ text10 ∧ Denotes (beforeSlash text10) (ip4 10 1 2 3) :=
  ⟨by decide, (parse_accepts_iff text10 _).mp (by decide +kernel)⟩

example : ∃ w f db m, Written 32 none none demoOps demoEnv w f ∧ dbOpen f = .ok db ∧
    ¬ StoredHost (· ∈ w.networks.networks) (ip4 10 1 2 3) ∧ pyLookup db text10 = .ok (.ret (some m)) ∧ SameBlock m net10_1_16 := by
  obtain ⟨w, f, db, h, ho, hl⟩ := demo_file
  have hn : ¬ StoredHost (· ∈ w.networks.networks) (ip4 10 1 2 3) := by rw [hl]; decide
  obtain ⟨r, h1, h2, h3⟩ := lookup_longest_prefix_partial (by decide) h ho hn (by
    rw [hl]
    intro k hk
    obtain ⟨hk1, hk2, hk3⟩ := hk
    rcases List.mem_cons.mp hk1 with rfl | hk1
    · exact absurd (hk3 net10_1_16 (by decide) (by decide)) (by decide)
    · rw [List.mem_singleton] at hk1
      subst hk1
      refine ⟨by decide, ?_⟩
      intro m hm hlt
      rcases List.mem_cons.mp hm with rfl | hm
      · exact absurd hlt (by decide)
      · rw [List.mem_singleton] at hm
        subst hm
        exact absurd hlt (by decide))
  have hms : MostSpecific (· ∈ w.networks.networks) (ip4 10 1 2 3) net10_1_16 := by
    rw [hl]
    refine ⟨by decide, by decide, ?_⟩
    intro m hm _
    rcases List.mem_cons.mp hm with rfl | hm
    · decide
    · rw [List.mem_singleton] at hm; subst hm; decide
  obtain ⟨m, rfl, hsb⟩ := h2 _ hms
  obtain ⟨r', g1, g2, -⟩ := py_lookup_partial (by decide) h ho text10 text10_denotes.1 text10_denotes.2 hn
  rw [h1] at g2
  cases g2
  exact ⟨w, f, db, m, h, ho, hn, g1, hsb⟩

/-! ## C56 -/

/-- In Lua and Perl, an AS is found with the name that was given to the writer (an empty one, if none was given), or
    reported as missing. -/
theorem script_as {K : Type} {ctz0 : Nat} (h0 : 8 ≤ ctz0) {key1 key2 : Option K} {ops : List (WOp K)} {e : WEnv K}
    {w : Writer K} {f : Bytes} (h : Written ctz0 key1 key2 ops e w f) {db : Db} (ho : dbOpen f = .ok db) (number : BitVec 32) :
    luaGetAs db number = .ok ((asesOf ops number).map fun name => ⟨number, some (name.getD [])⟩) ∧
    perlAsName db number = .ok ((asesOf ops number).map fun name => name.getD []) := by
  obtain ⟨db', ho', hr⟩ := as_roundtrip h0 h
  rw [ho] at ho'
  cases ho'
  unfold luaGetAs perlAsName
  rw [hr number]
  cases asesOf ops number with
  | none => exact ⟨rfl, rfl⟩
  | some x => cases x <;> exact ⟨rfl, rfl⟩

/-- The full claim about asking for a country: the data that was added, or nothing. -/
def ScriptAnswersCountry {K : Type} (ops : List (WOp K)) (db : Db) (code : Bytes) : Prop :=
  match countriesOf ops code with
  | none => luaGetCountry db code = .ok none ∧ perlCountryName db code = .ok none ∧ perlContinent db code = .ok none
  | some (continent, name) => (∃ c, luaGetCountry db code = .ok (some c) ∧ countryGetCode c = code ∧ c.name = some (name.getD []) ∧
      countryContinent c = continent) ∧ perlCountryName db code = .ok (some (name.getD [])) ∧ perlContinent db code = .ok continent

theorem scriptStr_valid {s : Bytes} (h : ValidCC s) : scriptStr s = s := by
  unfold scriptStr
  rw [List.takeWhile_eq_self_iff]
  intro c hc
  have := validCC_no_nul h
  simp only [decide_not, Bool.not_eq_eq_eq_not, Bool.not_true, decide_eq_false_iff_not]
  rintro rfl
  exact this hc

/-- In Lua and Perl, a country that was added is found with its name and continent.  Missing from the full claim: countries
    that were not added (`script_country_violated`), and, as in C24, histories that do not add the countries in
    alphabetical order or add some without a continent. -/
theorem script_country_partial {K : Type} {ctz0 : Nat} (h0 : 8 ≤ ctz0) {key1 key2 : Option K} {ops : List (WOp K)} {e : WEnv K}
    {w : Writer K} {f : Bytes} (h : Written ctz0 key1 key2 ops e w f) {db : Db} (ho : dbOpen f = .ok db)
    (horder : (codesAdded ops).Pairwise (fun a b => codeNumber a ≤ codeNumber b))
    (hcont : ∀ code continent name, countriesOf ops code = some (continent, name) → continent ≠ none)
    (s : Bytes) (hs : ValidCC s) (hk : countriesOf ops s ≠ none) : ScriptAnswersCountry ops db s := by
  obtain ⟨db', ho', hr⟩ := country_roundtrip_partial h0 h horder hcont
  rw [ho] at ho'
  cases ho'
  have hc := hr s hs
  unfold CountryRoundTrip at hc
  unfold ScriptAnswersCountry luaGetCountry perlCountryName perlContinent
  rw [scriptStr_valid hs]
  cases hk' : countriesOf ops s with
  | none => exact absurd hk' hk
  | some p =>
    obtain ⟨continent, name⟩ := p
    rw [hk'] at hc
    simp only at hc ⊢
    obtain ⟨c, h1, h2, h3, h4⟩ := hc
    rw [h1]
    simp only
    refine ⟨⟨c, rfl, h2, h4, h3⟩, ?_, ?_⟩
    · rw [h4]; rfl
    · rw [h3]
      cases continent with
      | none => exact absurd rfl (hcont s none name hk')
      | some k => rfl

/-- C56 violated: in every written database, asking for a country that was not added crashes both bindings: the missing
    country is used through a null pointer. -/
theorem script_country_violated {K : Type} {ctz0 : Nat} (h0 : 8 ≤ ctz0) {key1 key2 : Option K} {ops : List (WOp K)} {e : WEnv K}
    {w : Writer K} {f : Bytes} (h : Written ctz0 key1 key2 ops e w f) {db : Db} (ho : dbOpen f = .ok db)
    (s : Bytes) (hs : ValidCC s) (hk : countriesOf ops s = none) :
    luaGetCountry db s = .error .oob ∧ perlCountryName db s = .error .oob ∧ perlContinent db s = .error .oob := by
  obtain ⟨db', ho', hr⟩ := country_sound h0 h
  rw [ho] at ho'
  cases ho'
  unfold luaGetCountry perlCountryName perlContinent
  rw [scriptStr_valid hs]
  rcases hr s hs with h1 | ⟨c, continent, name, h1, h2, -⟩
  · rw [h1]
    exact ⟨rfl, rfl, rfl⟩
  · rw [hk] at h2
    cases h2

/-- Texts that are no country code give nil or undef. -/
theorem script_country_invalid (db : Db) (s : Bytes) (hs : ¬ ValidCC (scriptStr s)) :
    luaGetCountry db s = .ok none ∧ perlCountryName db s = .ok none ∧ perlContinent db s = .ok none := by
  unfold luaGetCountry perlCountryName perlContinent
  rw [getCountry_invalid db hs]
  exact ⟨rfl, rfl, rfl⟩

/-- DE was added to the example database, FR was not. -/
example : ∃ w f db, Written 32 none none demoOps demoEnv w f ∧ dbOpen f = .ok db ∧ luaGetCountry db [70, 82] = .error .oob := by
  obtain ⟨w, f, db, h, ho, -⟩ := demo_file
  exact ⟨w, f, db, h, ho, (script_country_violated (by decide) h ho [70, 82] (by decide) (by decide)).1⟩

example : ValidCC [68, 69] ∧ countriesOf demoOps [68, 69] ≠ none ∧ (codesAdded demoOps).Pairwise (fun a b => codeNumber a ≤ codeNumber b) := by
  decide

theorem fmtD_small {n : BitVec 32} (h : n.toNat < 2 ^ 31) : fmtD n = decStr n.toNat := by
  have : n.toInt = n.toNat := by rw [BitVec.toInt_eq_toNat_cond]; omega
  unfold fmtD
  rw [this, if_neg (by omega)]
  congr 1

/-- The text of an AS object (Python and Lua) is "AS", the number, and the name.  Missing from the full claim: numbers
    from 2^31 on. -/
theorem as_text_partial (a : AS) (h : a.number.toNat < 2 ^ 31) : AsText a.number.toNat a.name (asStr a) := by
  refine ⟨decStr a.number.toNat, decStr_numeral (by omega), ?_⟩
  unfold asStr
  rw [fmtD_small h]
  cases a.name <;> simp

/-- C56 violated: numbers from 2^31 on are printed as negative numbers: "AS-" and a numeral of 2^32 minus the number. -/
theorem as_text_violated (a : AS) (h : 2 ^ 31 ≤ a.number.toNat) :
    (∃ d, Numeral 10 (2 ^ 32 - a.number.toNat) d ∧ asStr a = [65, 83, 45] ++ d ++ match a.name with
      | some name => [32, 45, 32] ++ name
      | none => []) ∧ ¬ AsText a.number.toNat a.name (asStr a) := by
  have hlt := a.number.isLt
  have hi : a.number.toInt = (a.number.toNat : Int) - 2 ^ 32 := by rw [BitVec.toInt_eq_toNat_cond]; omega
  have hd : fmtD a.number = 45 :: decStr (2 ^ 32 - a.number.toNat) := by
    unfold fmtD
    rw [hi, if_pos (by omega)]
    congr 2
    omega
  constructor
  · refine ⟨_, decStr_numeral (by omega), ?_⟩
    unfold asStr
    rw [hd]
    cases a.name <;> simp
  · rintro ⟨d, hn, he⟩
    have hne := numeral_ne_nil hn
    have hx : ∃ t, asStr a = 65 :: 83 :: 45 :: t := by
      unfold asStr
      rw [hd]
      cases a.name <;> exact ⟨_, rfl⟩
    obtain ⟨t, ht⟩ := hx
    rw [ht] at he
    cases d with
    | nil => exact hne rfl
    | cons c d =>
      have hc : c = 45 := by
        have := congrArg (fun l => l[2]?) he
        simpa using this.symm
      subst hc
      obtain ⟨ds, h1, -⟩ := hn
      cases ds with
      | nil => cases h1
      | cons x xs =>
        rw [List.map_cons, List.map_cons, List.cons.injEq] at h1
        exact absurd h1.1 (by rw [show digitOf 45 = none by decide]; simp)

example : AsText 64512 (some [88]) (asStr ⟨64512, some [88]⟩) := as_text_partial ⟨64512, some [88]⟩ (by decide)

/-! ## C57 -/

theorem newFromString_cases (s : CStr) : (∃ n, newFromString (some s) = .ok n) ∨ newFromString (some s) = .error (.err EINVAL) := by
  unfold newFromString
  cases h : addressParse true (some s) with
  | error e =>
    rw [(parse_refuses true (some s)).1 e h]
    exact .inr rfl
  | ok r =>
    obtain ⟨a, p⟩ := r
    cases p with
    | none => exact .inr rfl
    | some p =>
      by_cases hp : famStart a + p ≤ 128
      · obtain ⟨m, h1, -⟩ := newNetwork_ok a p hp
        exact .inl ⟨m, h1⟩
      · exact .inr (newNetwork_err a p hp)

theorem newFromString_built (ctz0 : Nat) {s : CStr} {n : Network} (h : newFromString (some s) = .ok n) : Built ctz0 n := by
  unfold newFromString at h
  cases hp : addressParse true (some s) with
  | error e => rw [hp] at h; cases h
  | ok r =>
    obtain ⟨a, p⟩ := r
    rw [hp] at h
    cases p with
    | none => cases h
    | some p => exact Built.new h

/-- `Network(text)`: a network or a `ValueError`, nothing else. -/
theorem py_network (s : Bytes) : (∀ n, pyNetwork s = .ok (.ret n) ↔ (0 : Byte) ∉ s ∧ newFromString (some s) = .ok n) ∧
    (((0 : Byte) ∈ s ∨ ∀ n, newFromString (some s) ≠ .ok n) → pyNetwork s = .ok (.exc .value)) := by
  unfold pyNetwork
  by_cases h0 : (0 : Byte) ∈ s
  · rw [argStr_exc h0]
    exact ⟨fun n => ⟨fun h => (by cases h), fun h => absurd h0 h.1⟩, fun _ => rfl⟩
  · rw [argStr_ret h0]
    simp only
    rcases newFromString_cases s with ⟨n, hn⟩ | hn
    · rw [hn]
      refine ⟨fun m => ⟨fun h => ?_, fun h => ?_⟩, fun h => ?_⟩
      · cases h; exact ⟨h0, rfl⟩
      · obtain ⟨-, h⟩ := h; cases h; rfl
      · rcases h with h | h
        · exact absurd h h0
        · exact absurd rfl (h n)
    · rw [hn]
      exact ⟨fun m => ⟨fun h => (by cases h), fun h => (by cases h.2)⟩, fun _ => rfl⟩

/-- The full claim about adding a network: the text of a network that is new is added, one that exists raises an
    `IndexError`, anything else a `ValueError`; in the last two cases the stored networks stay. -/
def PyAddsNetwork {K : Type} (w : Writer K) (s : Bytes) : Prop :=
  ∃ x w', pyAddNetwork w s = .ok (x, w') ∧
    match pyNetwork s with
    | .ok (.ret n) =>
      if ∃ m ∈ w.networks.networks, SameBlock m n then x = .exc .index ∧ ∀ k, k ∈ w'.networks.networks ↔ k ∈ w.networks.networks
      else x = .ret n ∧ ∀ k, k ∈ w'.networks.networks ↔ k = n ∨ k ∈ w.networks.networks
    | _ => x = .exc .value ∧ ∀ k, k ∈ w'.networks.networks ↔ k ∈ w.networks.networks

/-- The claim holds for every text that is a network (and for those with a NUL).  Missing from the full claim: other texts. -/
theorem py_add_network_partial {K : Type} {ctz0 : Nat} (h0 : 8 ≤ ctz0) {w : Writer K} (hr : Reach ctz0 w.networks) (s : Bytes)
    (hs : (0 : Byte) ∈ s ∨ ∃ n, newFromString (some s) = .ok n) : PyAddsNetwork w s := by
  unfold PyAddsNetwork pyAddNetwork pyNetwork
  by_cases hz : (0 : Byte) ∈ s
  · rw [argStr_exc hz]
    exact ⟨_, _, rfl, rfl, fun k => Iff.rfl⟩
  · obtain ⟨n, hn⟩ := hs.resolve_left hz
    rw [argStr_ret hz]
    simp only
    rw [hn]
    simp only
    obtain ⟨hb, -⟩ := built_ok ctz0 h0 (newFromString_built ctz0 hn)
    obtain ⟨hw, -⟩ := reach_wf ctz0 h0 hr
    obtain ⟨t', hw', -, ha⟩ := treeAdd_spec hw hb
    unfold addNetwork
    rcases ha with ⟨h1, h2, h3⟩ | ⟨m, h1, h2, h3⟩
    · rw [h2]
      simp only
      rw [if_pos True.intro]
      refine ⟨_, _, rfl, ?_⟩
      rw [if_neg]
      · refine ⟨rfl, fun k => ?_⟩
        simp only
        rw [mem_networks_wf hw', mem_networks_wf hw, h3]
        by_cases hk : path k = path n
        · rw [if_pos hk, hk, h1]
          constructor
          · rintro ⟨-, h⟩; exact .inl (Option.some.inj h).symm
          · rintro (rfl | ⟨-, h⟩)
            · exact ⟨hb, rfl⟩
            · cases h
        · rw [if_neg hk]
          constructor
          · exact .inr
          · rintro (rfl | h)
            · exact absurd rfl hk
            · exact h
      · rintro ⟨m, hm, hsb⟩
        obtain ⟨hmb, hml⟩ := (mem_networks_wf hw).mp hm
        rw [(sameBlock_iff_path hmb hb).mp hsb, h1] at hml
        cases hml
    · rw [h2]
      simp only
      rw [if_neg (by decide)]
      refine ⟨_, _, rfl, ?_⟩
      obtain ⟨hmb, hmp⟩ := look_block hw h1
      rw [if_pos ⟨m, (mem_networks_wf hw).mpr ⟨hmb, by rw [hmp]; exact h1⟩, (sameBlock_iff_path hmb hb).mpr hmp⟩]
      refine ⟨rfl, fun k => ?_⟩
      simp only
      rw [mem_networks_wf hw', mem_networks_wf hw, h3]

/-- C57 violated: `add_network` of a text that is no network raises a `SystemError`. -/
theorem py_add_network_violated {K : Type} (w : Writer K) (s : Bytes) (hz : (0 : Byte) ∉ s) (hs : ∀ n, newFromString (some s) ≠ .ok n) :
    pyAddNetwork w s = .ok (.exc .system, w) ∧ ¬ PyAddsNetwork w s := by
  have h1 : pyAddNetwork w s = .ok (.exc .system, w) := by
    unfold pyAddNetwork
    rw [argStr_ret hz]
    simp only
    rcases newFromString_cases s with ⟨n, hn⟩ | hn
    · exact absurd hn (hs n)
    · rw [hn]
  refine ⟨h1, ?_⟩
  rintro ⟨x, w', h2, h3⟩
  rw [h1] at h2
  cases h2
  rw [(py_network s).2 (.inr hs)] at h3
  cases h3.1

example : ∀ n, newFromString (some exampleOrg) ≠ .ok n := by
  intro n h
  have : newFromString (some exampleOrg) = .error (.err EINVAL) := by decide +kernel
  rw [this] at h
  cases h

theorem countryNew_cases (s : CStr) : (ValidCC s ∧ ∃ c, countryNew (some s) = .ok c ∧ countryGetCode c = s) ∨
    (¬ ValidCC s ∧ countryNew (some s) = .error (.err EINVAL)) := by
  by_cases hv : ValidCC s
  · refine .inl ⟨hv, ?_⟩
    have hc := (ccIsValid_iff s).mpr hv
    obtain ⟨c0, c1, rfl, hh⟩ := id hv
    have hz := valid_ne_zero hc
    refine ⟨⟨c0, c1, 0, 0, none⟩, ?_, ?_⟩
    · unfold countryNew; rw [hc]; rfl
    · unfold countryGetCode; exact ccString_ne hz.1 hz.2
  · refine .inr ⟨hv, ?_⟩
    have hc : ccIsValid (some s) = false := by
      rw [Bool.eq_false_iff]; exact fun h' => hv ((ccIsValid_iff s).mp h')
    unfold countryNew
    rw [hc]
    rfl

/-- `Country(code)` and `Writer.add_country(code)` take every country code.  Missing from the full claim: that other texts
    raise a `ValueError` (`py_country_violated`). -/
theorem py_country_partial {K : Type} (w : Writer K) (s : Bytes) (hs : ValidCC s) :
    ∃ c w', pyCountry s = .ok (.ret c) ∧ pyAddCountry w s = .ok (.ret c, w') ∧ countryGetCode c = s := by
  rcases countryNew_cases s with ⟨-, c, h1, h2⟩ | ⟨h, -⟩
  · unfold pyCountry pyAddCountry
    rw [argStr_ret (validCC_no_nul hs)]
    simp only
    rw [h1]
    exact ⟨c, _, rfl, rfl, h2⟩
  · exact absurd hs h

/-- C57 violated: any other text without a NUL raises a `SystemError`. -/
theorem py_country_violated {K : Type} (w : Writer K) (s : Bytes) (hz : (0 : Byte) ∉ s) (hs : ¬ ValidCC s) :
    pyCountry s = .ok (.exc .system) ∧ pyAddCountry w s = .ok (.exc .system, w) := by
  rcases countryNew_cases s with ⟨h, -⟩ | ⟨-, h1⟩
  · exact absurd h hs
  · unfold pyCountry pyAddCountry
    rw [argStr_ret hz]
    simp only
    rw [h1]
    exact ⟨rfl, rfl⟩

/-- `network.country_code = text` takes the country codes and the empty text, and raises a `ValueError` otherwise. -/
theorem py_set_country_code (n : Network) (s : Bytes) (hz : (0 : Byte) ∉ s) :
    (s = [] ∨ ValidCC s → ∃ n', pySetCountryCode n s = .ok (.ret n') ∧ (props n').1 = s ∧ SameBlock n' n ∧ (props n').2 = (props n).2) ∧
    (s ≠ [] → ¬ ValidCC s → pySetCountryCode n s = .ok (.exc .value)) := by
  have ht : s.takeWhile (· ≠ 0) = s := by
    rw [List.takeWhile_eq_self_iff]
    intro c hc
    simp only [decide_not, Bool.not_eq_eq_eq_not, Bool.not_true, decide_eq_false_iff_not]
    rintro rfl
    exact hz hc
  unfold pySetCountryCode
  rw [ht]
  constructor
  · rintro (rfl | hv)
    · refine ⟨{ n with cc0 := 0 }, by simp [setCountryCode], ?_, ⟨rfl, rfl⟩, rfl⟩
      unfold props
      simp
    · have hc := (ccIsValid_iff s).mpr hv
      obtain ⟨c0, c1, rfl, hh⟩ := id hv
      have hzz := valid_ne_zero hc
      refine ⟨{ n with cc0 := c0, cc1 := c1 }, by simp [setCountryCode, hc], ?_, ⟨rfl, rfl⟩, rfl⟩
      unfold props
      rw [if_neg hzz.1, if_neg hzz.2]
  · intro hne hv
    have hc : ccIsValid (some s) = false := by
      rw [Bool.eq_false_iff]; exact fun h' => hv ((ccIsValid_iff s).mp h')
    cases s with
    | nil => exact absurd rfl hne
    | cons c s => simp [setCountryCode, hc]

/-- `network.asn = number` takes exactly the numbers from 1 to 2^32 - 1 and raises a `ValueError` otherwise. -/
theorem py_set_asn (n : Network) (k : Int) :
    (1 ≤ k ∧ k < 2 ^ 32 → ∃ n', pySetAsn n k = .ret n' ∧ (n'.asn.toNat : Int) = k ∧ SameBlock n' n ∧ (props n').1 = (props n).1 ∧
      n'.flags = n.flags) ∧
    (¬ (1 ≤ k ∧ k < 2 ^ 32) → pySetAsn n k = .exc .value) := by
  unfold pySetAsn
  constructor
  · rintro ⟨h1, h2⟩
    rw [if_neg (by omega)]
    refine ⟨_, rfl, ?_, ⟨rfl, rfl⟩, rfl, rfl⟩
    unfold setAsn
    simp only
    rw [BitVec.toNat_ofInt]
    omega
  · intro h
    rw [if_pos (by omega)]

/-- `Writer.add_as(number)` adds an AS with this number.  Missing from the full claim: numbers from 2^31 on. -/
theorem py_add_as_partial {K : Type} (w : Writer K) (n : Nat) (hn : n < 2 ^ 31) :
    pyAddAs w n = (.ret ⟨BitVec.ofNat 32 n, none⟩, addAs w (BitVec.ofNat 32 n) none) := by
  unfold pyAddAs
  rw [argInt_ret hn]

/-- C57 violated: `Writer.add_as` refuses the numbers from 2^31 on. -/
theorem py_add_as_violated {K : Type} (w : Writer K) (n : Int) (hn : 2 ^ 31 ≤ n) : pyAddAs w n = (.exc .overflow, w) := by
  unfold pyAddAs
  rw [argInt_overflow hn]

/-- `network.exclude(other)`: the networks that cover the rest, in descending order.  Missing from the full claim: blocks
    across the middle (`CutsOddBlock`). -/
theorem py_exclude_partial {self other : Network} (hs : Block self) (hc : CountryOk self) (ho : Block other)
    (hin : StrictlyInside other self) (hodd : ¬ CutsOddBlock self other) :
    ∃ l, pyExclude self other = .ok l ∧ ExactDifference self other l.reverse := by
  obtain ⟨l, h1, h2⟩ := exclude_exact_partial hs hc ho hin hodd
  refine ⟨l.reverse, ?_, by rw [List.reverse_reverse]; exact h2⟩
  unfold pyExclude
  rw [h1]

/-- C57 violated: where the library reports an error (C06), the interpreter crashes: the list that was not made is used. -/
theorem py_exclude_violated : (∀ self other : Network, Block self → CountryOk self → Block other → StrictlyInside other self →
      CutsOddBlock self other → pyExclude self other = .error .oob) ∧
    Block netZ79 ∧ Block netZ96 ∧ StrictlyInside netZ96 netZ79 ∧ pyExclude netZ79 netZ96 = .error .oob := by
  obtain ⟨b1, b2, b3, b4⟩ := exclude_violated
  refine ⟨?_, b1, b2, b3, ?_⟩
  · intro self other hs hc ho hin hodd
    unfold pyExclude
    rw [exclude_odd hs hc ho hin hodd]
  · unfold pyExclude
    rw [b4]

/-- C57 violated: an AS object that was made without a name has no `name` that could be read. -/
theorem py_as_name_violated {K : Type} (w : Writer K) (n : Nat) (hn : n < 2 ^ 31) :
    ∃ a, (pyAddAs w n).1 = .ret a ∧ pyAsName a = .error .oob := by
  rw [py_add_as_partial w n hn]
  exact ⟨_, rfl, rfl⟩

end Loc.Props
