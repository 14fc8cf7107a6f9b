import Verif.Lemmas.Written
import Verif.Spec.File
/-
Properties of written databases: C22 (ASes), C24 (countries), C26 (metadata), C40 (layout),
C41 (formats).
-/
namespace Loc.Props
open Loc Spec

/-! ## A sample history -/

def demoEnv : WEnv Unit := ⟨32, (·.pfx), 1700000000, fun _ => (1, 2, 3, 4), (90, 90), fun _ _ => .late⟩

/-- "IPFire", "x"; AS 204867 "L", AS 64512 without a name, AS 204867 again; Austria (AT, EU, "A"), Germany (DE,
    EU, "D"), Japan (JP, no continent, no name); 10.0.0.0/8 in DE and 10.1.0.0/16 -/
def demoOps : List (WOp Unit) :=
  [.vendor (some [120]), .vendor (some [73, 80, 70, 105, 114, 101]), .description none,
   .addAs 204867 (some [76]), .addAs 64512 none, .addAs 204867 (some [77]), .license (some [67, 67]),
   .addCountry (some [65, 84]) (some [69, 85]) (some [65]), .addCountry (some [68, 69]) (some [69, 85]) (some [68]),
   .addCountry (some [88, 88]) none none, .addCountry (some [74, 80]) none none,
   .addNetwork net10_8, .addNetwork net10_1_16]

def runOf (ops : List (WOp Unit)) : Option (Writer Unit) :=
  match writerNew none none with
  | .error _ => none
  | .ok w => match wrun w ops with
    | .error _ => none
    | .ok w => some w

theorem runOf_writes {ops : List (WOp Unit)} (hok : ∀ op ∈ ops, OpOk 32 op) {w : Writer Unit} (h : runOf ops = some w) :
    Writes 32 none none ops w := by
  unfold runOf at h
  split at h
  · cases h
  rename_i w0 h0
  split at h
  · cases h
  rename_i w1 h1
  cases h
  exact ⟨hok, w0, h0, h1⟩

/-- Length of the file that is written. -/
def fileLength (s : Sections) : Nat := poolOffset s + s.pool.length

/-- What a history of calls and a final write to a new file produce: length of the file and writer. -/
def outcome (e : WEnv Unit) (ops : List (WOp Unit)) : Option (Nat × Writer Unit) :=
  match runOf ops with
  | none => none
  | some w => match writeSections e w with
    | .error _ => none
    | .ok (s, w1) => some (fileLength s, w1)

theorem outcome_written {e : WEnv Unit} (he : e.ctz0 = 32) {ops : List (WOp Unit)} (hok : ∀ op ∈ ops, OpOk 32 op) {n : Nat} {w : Writer Unit}
    (h : outcome e ops = some (n, w)) (hn : n < 2 ^ 32) : ∃ f, Written 32 none none ops e w f := by
  unfold outcome at h
  split at h
  · cases h
  rename_i w0 h0
  split at h
  · cases h
  rename_i s w1 h1
  cases h
  exact written_of (runOf_writes hok h0) he h1 hn

theorem outcome_exists {e : WEnv Unit} (he : e.ctz0 = 32) {ops : List (WOp Unit)} (hok : ∀ op ∈ ops, OpOk 32 op)
    (h : ((outcome e ops).map (·.1)).any (· < 2 ^ 32) = true) : ∃ w f, Written 32 none none ops e w f ∧ (outcome e ops).map (·.2) = some w := by
  cases ho : outcome e ops with
  | none => rw [ho] at h; cases h
  | some r =>
    rw [ho] at h
    obtain ⟨f, hf⟩ := outcome_written he hok ho (by simpa using h)
    exact ⟨r.2, f, hf, rfl⟩

theorem net10_8_built (ctz0 : Nat) : Built ctz0 net10_8 :=
  .asn 65000 (.country (n' := { net10_8p with cc0 := 68, cc1 := 69 }) (cc := some [68, 69]) (net10_8p_built ctz0) (by decide +kernel))

theorem demo_ok : ∀ op ∈ demoOps, OpOk 32 op := by
  intro op h
  simp only [demoOps, List.mem_cons, List.not_mem_nil, or_false] at h
  have s : ∀ l : CStr, (0 : Byte) ∉ l → StrOk (some l) := by rintro l hl x ⟨⟩; exact hl
  have n : StrOk none := by rintro x ⟨⟩
  rcases h with rfl | rfl | rfl | rfl | rfl | rfl | rfl | rfl | rfl | rfl | rfl | rfl | rfl
  · exact s _ (by decide)
  · exact s _ (by decide)
  · exact n
  · exact s _ (by decide)
  · exact n
  · exact s _ (by decide)
  · exact s _ (by decide)
  · exact ⟨s _ (by decide), s _ (by decide), s _ (by decide)⟩
  · exact ⟨s _ (by decide), s _ (by decide), s _ (by decide)⟩
  · exact ⟨s _ (by decide), n, n⟩
  · exact ⟨s _ (by decide), n, n⟩
  · exact net10_8_built _
  · exact net10_1_16_built _

theorem demo_written : ∃ w f, Written 32 none none demoOps demoEnv w f := by
  obtain ⟨w, f, h, -⟩ := outcome_exists (e := demoEnv) rfl demo_ok (by decide +kernel)
  exact ⟨w, f, h⟩

/-! ## C26 -/

/-- Vendor, description and license of the written database are what was last set (empty if never set),
    the creation time is the time of writing. -/
theorem metadata_roundtrip {K : Type} {ctz0 : Nat} (h0 : 8 ≤ ctz0) {key1 key2 : Option K} {ops : List (WOp K)} {e : WEnv K}
    {w : Writer K} {f : Bytes} (h : Written ctz0 key1 key2 ops e w f) :
    ∃ db, dbOpen f = .ok db ∧ dbVendor db = .ok (some (lastSet vendorCall ops)) ∧
      dbDescription db = .ok (some (lastSet descriptionCall ops)) ∧ dbLicense db = .ok (some (lastSet licenseCall ops)) ∧
      (e.now < 2 ^ 64 → db.createdAt = e.now) := by
  obtain ⟨w0, s, sig1, sig2, tail, db, -, v, hi, -⟩ := written_view h0 h
  obtain ⟨h1, h2, h3⟩ := view_strings v hi (Written.len h)
  exact ⟨db, v.opened, h1, h2, h3, fun hn => by rw [v.created, Nat.mod_eq_of_lt hn]⟩

/-- The last vendor set in the sample is "IPFire"; a `NULL` description is refused and leaves it empty. -/
example : lastSet vendorCall demoOps = [73, 80, 70, 105, 114, 101] ∧ lastSet descriptionCall demoOps = [] ∧
    lastSet licenseCall demoOps = [67, 67] ∧ ∃ w f, Written 32 none none demoOps demoEnv w f :=
  ⟨rfl, rfl, rfl, demo_written⟩

/-! ## C22 -/

/-- An AS is found exactly if its number was added; its name is the one of the first addition (or the one
    the added object was given later), the empty string if there is none. -/
theorem as_roundtrip {K : Type} {ctz0 : Nat} (h0 : 8 ≤ ctz0) {key1 key2 : Option K} {ops : List (WOp K)} {e : WEnv K}
    {w : Writer K} {f : Bytes} (h : Written ctz0 key1 key2 ops e w f) :
    ∃ db, dbOpen f = .ok db ∧ ∀ number,
      getAs db number = match asesOf ops number with
        | none => .ok none
        | some none => .ok (some ⟨number, some []⟩)
        | some (some name) => .ok (some ⟨number, some name⟩) := by
  obtain ⟨w0, s, sig1, sig2, tail, db, hw0, v, hi, hsort, -⟩ := written_view h0 h
  refine ⟨db, v.opened, fun k => ?_⟩
  have hs : w.ases.Pairwise (fun x y => x.number < y.number) := by
    rw [hsort]; exact asListSort_sorted (winv hw0).nodup
  have hc := v.asCount
  rcases getAsLoop_spec v.ases hs k (db.asCount + 1) 0 (db.asCount - 1) (by omega) (by omega) (by omega) (by omega)
    (by
      intro i a hia _
      have := (List.getElem?_eq_some_iff.mp hia).1
      omega) with ⟨a, ha, hk, hr⟩ | ⟨hno, hr⟩
  · have := (hi.ases a.number a.name).mp ha
    rw [hk] at this
    unfold getAs
    rw [hr, this]
    cases a.name <;> rfl
  · have : asesOf ops k = none := by
      cases e : asesOf ops k with
      | none => rfl
      | some name => exact absurd rfl (hno _ ((hi.ases k name).mpr e))
    unfold getAs
    rw [hr, this]

/-- AS 204867 was added twice: the first name stays. -/
example : asesOf demoOps 204867 = some (some [76]) ∧ asesOf demoOps 64512 = some none ∧ asesOf demoOps 1 = none := ⟨rfl, rfl, rfl⟩

/-! ## C24 -/

/-- The full claim for a country code and a database: found exactly if added, with its continent and its
    name (the empty string if it has none). -/
def CountryRoundTrip {K : Type} (ops : List (WOp K)) (db : Db) (code : CStr) : Prop :=
  match countriesOf ops code with
  | none => getCountry db (some code) = .ok .missing
  | some (continent, name) => ∃ c, getCountry db (some code) = .ok (.found c) ∧ countryGetCode c = code ∧
      countryContinent c = continent ∧ c.name = some (name.getD [])

theorem country_view {K : Type} {ctz0 : Nat} {key1 key2 : Option K} {ops : List (WOp K)} {e : WEnv K} {w : Writer K} {s : Sections}
    {sig1 sig2 tail f : Bytes} {db : Db} (v : View e w s sig1 sig2 tail f db) (hi : WInv ctz0 key1 key2 ops w) {c : Country}
    (hc : c ∈ leaked e.junkContinent w.countries) :
    ∃ continent name, countriesOf ops [c.c0, c.c1] = some (continent, name) ∧ countryGetCode (storedCountry c) = [c.c0, c.c1] ∧
      (storedCountry c).name = some (name.getD []) ∧ (continent ≠ none → countryContinent (storedCountry c) = continent) ∧
      ccIsValid (some [c.c0, c.c1]) = true := by
  obtain ⟨i, hlt, hget⟩ := List.getElem_of_mem hc
  obtain ⟨d, d1, d2, d3, d4, d5⟩ := leaked_getElem (List.getElem?_eq_getElem hlt)
  rw [hget] at d2 d3 d4 d5
  have hd := List.mem_of_getElem? d1
  have hg := hi.cgood d hd
  have hnz := valid_ne_zero hg.code
  have hcd : countryGetCode d = [c.c0, c.c1] := by rw [d2, d3]; exact getCode_good hg
  refine ⟨countryContinent d, d.name, (hi.countries _ _ _).mp ⟨d, hd, hcd, rfl, rfl⟩, ?_, ?_, ?_, ?_⟩
  · rw [← hcd]; unfold countryGetCode storedCountry; simp only [d2, d3]
  · unfold storedCountry; simp only [d4]
  · intro hne
    have hk : d.k0 ≠ 0 := by
      intro hk
      apply hne
      unfold countryContinent
      rw [if_pos hk]
    rw [d5 hk]
    unfold countryContinent storedCountry
    simp only [if_pos hk]
  · rw [d2, d3]; exact hg.code

theorem getCountry_eq {db : Db} {code : CStr} (h : ccIsValid (some code) = true) :
    getCountry db (some code) = getCountryLoop db code (db.countryCount + 1) 0 (db.countryCount - 1) := by
  unfold getCountry
  rw [h]
  rfl

/-- Whatever the order of the additions: looking up a valid code ends regularly, and a country that is found
    was added and has its name and its continent (if it has one). -/
theorem country_sound {K : Type} {ctz0 : Nat} (h0 : 8 ≤ ctz0) {key1 key2 : Option K} {ops : List (WOp K)} {e : WEnv K}
    {w : Writer K} {f : Bytes} (h : Written ctz0 key1 key2 ops e w f) :
    ∃ db, dbOpen f = .ok db ∧ ∀ code, ValidCC code →
      getCountry db (some code) = .ok .missing ∨
      ∃ c continent name, getCountry db (some code) = .ok (.found c) ∧ countriesOf ops code = some (continent, name) ∧
        countryGetCode c = code ∧ c.name = some (name.getD []) ∧ (continent ≠ none → countryContinent c = continent) := by
  obtain ⟨w0, s, sig1, sig2, tail, db, hw0, v, hi, -⟩ := written_view h0 h
  refine ⟨db, v.opened, fun code hcode => ?_⟩
  have hv := (ccIsValid_iff code).mpr hcode
  have hlen := leaked_length e.junkContinent w.countries
  have hcc := v.countryCount
  rw [getCountry_eq hv]
  rcases getCountryLoop_sound v.countries (fun c hc => (country_view v hi hc).choose_spec.choose_spec.2.2.2.2) code hv (db.countryCount + 1) 0 (db.countryCount - 1)
    (by omega) (by omega) (by omega) (by omega) with ⟨c, hc, hk, hr⟩ | hr
  · right
    obtain ⟨cont, name, g1, g2, g3, g4, -⟩ := country_view v hi hc
    rw [hk] at g1 g2
    exact ⟨_, cont, name, hr, g1, g2, g3, g4⟩
  · exact .inl hr

/-- Countries round-trip if the codes are added in alphabetical order and every country has a continent
    code.  Missing: other orders (the section is not sorted, but searched as if it were), and countries
    without continent code (they get the continent code of another country). -/
theorem country_roundtrip_partial {K : Type} {ctz0 : Nat} (h0 : 8 ≤ ctz0) {key1 key2 : Option K} {ops : List (WOp K)} {e : WEnv K}
    {w : Writer K} {f : Bytes} (h : Written ctz0 key1 key2 ops e w f)
    (horder : (codesAdded ops).Pairwise (fun a b => codeNumber a ≤ codeNumber b))
    (hcont : ∀ code continent name, countriesOf ops code = some (continent, name) → continent ≠ none) :
    ∃ db, dbOpen f = .ok db ∧ ∀ code, ValidCC code → CountryRoundTrip ops db code := by
  obtain ⟨w0, s, sig1, sig2, tail, db, hw0, v, hi, -⟩ := written_view h0 h
  obtain ⟨db', hdb', hsound⟩ := country_sound h0 h
  have : db' = db := by have := v.opened; rw [hdb'] at this; cases this; rfl
  subst this
  refine ⟨db', hdb', fun code hcode => ?_⟩
  have hv := (ccIsValid_iff code).mpr hcode
  unfold CountryRoundTrip
  have hlen := leaked_length e.junkContinent w.countries
  have hcc := v.countryCount
  rcases hsound code hcode with hm | ⟨c, cont, name, g1, g2, g3, g4, g5⟩
  · cases hof : countriesOf ops code with
    | none => exact hm
    | some r =>
      exfalso
      obtain ⟨cont, name⟩ := r
      obtain ⟨d, hd, hdc, -, -⟩ := (hi.countries _ _ _).mpr hof
      obtain ⟨i, hi1, rfl⟩ := List.getElem_of_mem hd
      have hi2 : i < (leaked e.junkContinent w.countries).length := by omega
      obtain ⟨d', x1, x2, x3, -, -⟩ := leaked_getElem (List.getElem?_eq_getElem hi2)
      rw [List.getElem?_eq_getElem hi1] at x1
      cases x1
      rw [getCode_good (hi.cgood _ hd)] at hdc
      rw [getCountry_eq hv] at hm
      refine getCountryLoop_complete v.countries (fun c hc => (country_view v hi hc).choose_spec.choose_spec.2.2.2.2) ?_ code hv _ _ _
        (by omega) (by omega) (by omega) (by omega) ⟨i, _, List.getElem?_eq_getElem hi2, by rw [x2, x3]; exact hdc, by omega, by omega⟩ hm
      -- the section is sorted
      have hsub := hi.csub
      have hle := horder.sublist hsub
      have hnd := hi.cnodup
      rw [List.pairwise_iff_getElem]
      intro a b ha hb hab
      have ha' : a < w.countries.length := by omega
      have hb' : b < w.countries.length := by omega
      obtain ⟨da, y1, y2, y3, -, -⟩ := leaked_getElem (List.getElem?_eq_getElem ha)
      obtain ⟨db, z1, z2, z3, -, -⟩ := leaked_getElem (List.getElem?_eq_getElem hb)
      rw [List.getElem?_eq_getElem ha'] at y1
      rw [List.getElem?_eq_getElem hb'] at z1
      cases y1; cases z1
      rw [y2, y3, z2, z3]
      have ga := getCode_good (hi.cgood _ (List.getElem_mem ha'))
      have gb := getCode_good (hi.cgood _ (List.getElem_mem hb'))
      have hle' := List.pairwise_iff_getElem.mp hle a b (by simpa using ha') (by simpa using hb') hab
      have hne' := List.pairwise_iff_getElem.mp hnd a b (by simpa using ha') (by simpa using hb') hab
      simp only [List.getElem_map, ga, gb] at hle' hne'
      generalize w.countries[a] = ca at *
      generalize w.countries[b] = cb at *
      rcases Nat.lt_or_eq_of_le hle' with hlt | heq
      · exact hlt
      · exfalso
        apply hne'
        have b1 := ca.c0.isLt
        have b2 := ca.c1.isLt
        have b3 := cb.c0.isLt
        have b4 := cb.c1.isLt
        simp only [codeNumber, List.foldl] at heq
        have q1 : ca.c0 = cb.c0 := BitVec.eq_of_toNat_eq (by omega)
        have q2 : ca.c1 = cb.c1 := BitVec.eq_of_toNat_eq (by omega)
        rw [q1, q2]
  · rw [g2]
    exact ⟨c, g1, g3, g5 (hcont code cont name g2), g4⟩

/-- The sample meets the order condition; for Japan there is no continent, so only `country_sound` applies
    to it. -/
example : (codesAdded demoOps).Pairwise (fun a b => codeNumber a ≤ codeNumber b) ∧
    countriesOf demoOps [65, 84] = some (some [69, 85], some [65]) ∧ countriesOf demoOps [74, 80] = some (none, none) ∧
    countriesOf demoOps [88, 88] = none := by decide

/-- The file a history of calls and a final write to a new file produce. -/
def fileOf (e : WEnv Unit) (ops : List (WOp Unit)) : Option Bytes :=
  match runOf ops with
  | none => none
  | some w => match writerWrite e w [] 0 with
    | .ok (_, some f) => if f.length < 2 ^ 32 then some f else none
    | _ => none

/-- Ask a question of the opened file. -/
def ask {α : Type} (f : Option Bytes) (q : Db → Res α) : Option α :=
  match f with
  | none => none
  | some f => match dbOpen f with
    | .error _ => none
    | .ok db => match q db with
      | .error _ => none
      | .ok x => some x

theorem ask_written {α : Type} {e : WEnv Unit} (he : e.ctz0 = 32) {ops : List (WOp Unit)} (hok : ∀ op ∈ ops, OpOk 32 op) {q : Db → Res α} {x : α}
    (h : ask (fileOf e ops) q = some x) : ∃ w f db, Written 32 none none ops e w f ∧ dbOpen f = .ok db ∧ q db = .ok x := by
  unfold ask at h
  split at h
  · cases h
  rename_i f hf
  split at h
  · cases h
  rename_i db hdb
  split at h
  · cases h
  rename_i y hy
  cases h
  unfold fileOf at hf
  split at hf
  · cases hf
  rename_i w hw
  split at hf
  · rename_i w1 f1 hw1
    split at hf
    · rename_i hl
      cases hf
      exact ⟨w1, f, db, ⟨w, [], 0, runOf_writes hok hw, he, hw1, hl⟩, hdb, hy⟩
    · cases hf
  · cases hf

theorem strOk_some (l : CStr) (h : (0 : Byte) ∉ l) : StrOk (some l) := by rintro x ⟨⟩; exact h
theorem strOk_none : StrOk none := by rintro x ⟨⟩

/-- Germany, then Austria -/
def unsortedOps : List (WOp Unit) :=
  [.addCountry (some [68, 69]) (some [69, 85]) (some [68]), .addCountry (some [65, 84]) (some [69, 85]) (some [65])]

/-- The code violates the full claim: Austria was added after Germany and is not found. -/
theorem country_violated_order : ∃ w f db, Written 32 none none unsortedOps demoEnv w f ∧ dbOpen f = .ok db ∧
    ¬ CountryRoundTrip unsortedOps db [65, 84] := by
  obtain ⟨w, f, db, h1, h2, h3⟩ := ask_written (e := demoEnv) (ops := unsortedOps) (q := fun db => getCountry db (some [65, 84])) (x := .missing) rfl
    (by
      intro op h
      simp only [unsortedOps, List.mem_cons, List.not_mem_nil, or_false] at h
      rcases h with rfl | rfl <;> exact ⟨strOk_some _ (by decide), strOk_some _ (by decide), strOk_some _ (by decide)⟩)
    (by decide +kernel)
  refine ⟨w, f, db, h1, h2, ?_⟩
  unfold CountryRoundTrip
  rw [show countriesOf unsortedOps [65, 84] = some (some [69, 85], some [65]) from rfl]
  rintro ⟨c, hc, -⟩
  rw [h3] at hc
  cases hc

/-- Germany in Europe, then Japan without a continent code -/
def noContinentOps : List (WOp Unit) :=
  [.addCountry (some [68, 69]) (some [69, 85]) none, .addCountry (some [74, 80]) none none]

/-- The code violates the full claim: Japan was added without a continent code and gets the one of Germany. -/
theorem country_violated_continent : ∃ w f db, Written 32 none none noContinentOps demoEnv w f ∧ dbOpen f = .ok db ∧
    ¬ CountryRoundTrip noContinentOps db [74, 80] := by
  obtain ⟨w, f, db, h1, h2, h3⟩ := ask_written (e := demoEnv) (ops := noContinentOps) (q := fun db => getCountry db (some [74, 80]))
    (x := .found ⟨74, 80, 69, 85, some []⟩) rfl
    (by
      intro op h
      simp only [noContinentOps, List.mem_cons, List.not_mem_nil, or_false] at h
      rcases h with rfl | rfl
      · exact ⟨strOk_some _ (by decide), strOk_some _ (by decide), strOk_none⟩
      · exact ⟨strOk_some _ (by decide), strOk_none, strOk_none⟩)
    (by decide +kernel)
  refine ⟨w, f, db, h1, h2, ?_⟩
  unfold CountryRoundTrip
  rw [show countriesOf noContinentOps [74, 80] = some (none, none) from rfl]
  rintro ⟨c, hc, -, hk, -⟩
  rw [h3] at hc
  cases hc
  exact absurd hk (by decide)

/-! ## C40 -/

/-- A section whose offset and length are stored in the file from `at` on: page aligned, behind the header,
    inside the file, made of whole records. -/
def SectionOk (f : Bytes) (pos recordSize : Nat) : Prop :=
  word f pos % 4096 = 0 ∧ 4200 ≤ word f pos ∧ word f pos + word f (pos + 4) ≤ f.length ∧ word f (pos + 4) % recordSize = 0

/-- The section described at `pos` ends before the one described at `pos'` begins. -/
def SectionBefore (f : Bytes) (pos pos' : Nat) : Prop := word f pos + word f (pos + 4) ≤ word f pos'

theorem padded (n : Nat) : (n + (padding n).length) % 4096 = 0 ∧ n ≤ n + (padding n).length := by
  simp only [padding, List.length_replicate, pageSize]
  omega

/-- All sections are well placed: ASes (described at 28), tree (44), networks (36), countries (52), strings (60).
    The string pool ends with a NUL byte. -/
theorem layout_wellformed {K : Type} {ctz0 : Nat} (h0 : 8 ≤ ctz0) {key1 key2 : Option K} {ops : List (WOp K)} {e : WEnv K}
    {w : Writer K} {f : Bytes} (h : Written ctz0 key1 key2 ops e w f) :
    SectionOk f 28 8 ∧ SectionOk f 44 12 ∧ SectionOk f 36 12 ∧ SectionOk f 52 8 ∧ SectionOk f 60 1 ∧
    SectionBefore f 28 44 ∧ SectionBefore f 44 36 ∧ SectionBefore f 36 52 ∧ SectionBefore f 52 60 ∧
    0 < word f 64 ∧ f[word f 60 + word f 64 - 1]? = some 0 := by
  obtain ⟨w0, s, sig1, sig2, tail, db, -, v, hi, -⟩ := written_view h0 h
  have hlen := Written.len h
  have hw : ∀ off, word f off = field f off 4 := fun _ => rfl
  obtain ⟨_, _, fA, lA⟩ := v.layout.ases
  obtain ⟨_, _, fT, lT⟩ := v.layout.tree
  obtain ⟨_, _, fN, lN⟩ := v.layout.nets
  obtain ⟨_, _, fC, lC⟩ := v.layout.countries
  obtain ⟨preP, fP, lP⟩ := v.layout.pool
  have sA : asOffset + s.ases.length ≤ f.length := by rw [fA, List.length_append, List.length_append, lA]; omega
  have sT : treeOffset s + s.tree.length ≤ f.length := by rw [fT, List.length_append, List.length_append, lT]; omega
  have sN : netOffset s + s.nets.length ≤ f.length := by rw [fN, List.length_append, List.length_append, lN]; omega
  have sC : countryOffset s + s.countries.length ≤ f.length := by rw [fC, List.length_append, List.length_append, lC]; omega
  have sP : poolOffset s + s.pool.length ≤ f.length := by rw [fP, List.length_append, List.length_append, lP]; omega
  have key : ∀ k, field f (8 + k) 4 = field (headerBytes (makeHeader e w s) sig1 sig2 ++ (bodyBytes s ++ tail)) k 4 := by
    intro k
    rw [v.layout.eq, List.append_assoc, field_skip _ _ _ _ (by rw [length_magic]; unfold magicSize; omega), length_magic]
    congr 1
    unfold magicSize; omega
  have m : ∀ {n : Nat}, n ≤ f.length → n % 2 ^ 32 = n := fun hn => Nat.mod_eq_of_lt (by omega)
  have w28 : word f 28 = asOffset := by
    rw [hw, show 28 = 8 + 20 from rfl, key, headerBytes_eq]
    simp only [List.append_assoc, field_skip64, field_skip32, field_head32, Nat.reduceLeDiff, Nat.reduceSub, beVal_be32]
    exact m (n := asOffset) (by omega)
  have w32 : word f 32 = s.ases.length := by
    rw [hw, show 32 = 8 + 24 from rfl, key, headerBytes_eq]
    simp only [List.append_assoc, field_skip64, field_skip32, field_head32, Nat.reduceLeDiff, Nat.reduceSub, beVal_be32]
    exact m (n := s.ases.length) (by omega)
  have w36 : word f 36 = netOffset s := by
    rw [hw, show 36 = 8 + 28 from rfl, key, headerBytes_eq]
    simp only [List.append_assoc, field_skip64, field_skip32, field_head32, Nat.reduceLeDiff, Nat.reduceSub, beVal_be32]
    exact m (n := netOffset s) (by omega)
  have w40 : word f 40 = s.nets.length := by
    rw [hw, show 40 = 8 + 32 from rfl, key, headerBytes_eq]
    simp only [List.append_assoc, field_skip64, field_skip32, field_head32, Nat.reduceLeDiff, Nat.reduceSub, beVal_be32]
    exact m (n := s.nets.length) (by omega)
  have w44 : word f 44 = treeOffset s := by
    rw [hw, show 44 = 8 + 36 from rfl, key, headerBytes_eq]
    simp only [List.append_assoc, field_skip64, field_skip32, field_head32, Nat.reduceLeDiff, Nat.reduceSub, beVal_be32]
    exact m (n := treeOffset s) (by omega)
  have w48 : word f 48 = s.tree.length := by
    rw [hw, show 48 = 8 + 40 from rfl, key, headerBytes_eq]
    simp only [List.append_assoc, field_skip64, field_skip32, field_head32, Nat.reduceLeDiff, Nat.reduceSub, beVal_be32]
    exact m (n := s.tree.length) (by omega)
  have w52 : word f 52 = countryOffset s := by
    rw [hw, show 52 = 8 + 44 from rfl, key, headerBytes_eq]
    simp only [List.append_assoc, field_skip64, field_skip32, field_head32, Nat.reduceLeDiff, Nat.reduceSub, beVal_be32]
    exact m (n := countryOffset s) (by omega)
  have w56 : word f 56 = s.countries.length := by
    rw [hw, show 56 = 8 + 48 from rfl, key, headerBytes_eq]
    simp only [List.append_assoc, field_skip64, field_skip32, field_head32, Nat.reduceLeDiff, Nat.reduceSub, beVal_be32]
    exact m (n := s.countries.length) (by omega)
  have w60 : word f 60 = poolOffset s := by
    rw [hw, show 60 = 8 + 52 from rfl, key, headerBytes_eq]
    simp only [List.append_assoc, field_skip64, field_skip32, field_head32, Nat.reduceLeDiff, Nat.reduceSub, beVal_be32]
    exact m (n := poolOffset s) (by omega)
  have w64 : word f 64 = s.pool.length := by
    rw [hw, show 64 = 8 + 56 from rfl, key, headerBytes_eq]
    simp only [List.append_assoc, field_skip64, field_skip32, field_head32, Nat.reduceLeDiff, Nat.reduceSub, beVal_be32]
    exact m (n := s.pool.length) (by omega)
  obtain ⟨l1, l2, l3, l4⟩ := v.lens
  have oA := padded (magicSize + headerSize)
  have oT := padded (asOffset + s.ases.length)
  have oN := padded (treeOffset s + s.tree.length)
  have oC := padded (netOffset s + s.nets.length)
  have oP := padded (countryOffset s + s.countries.length)
  have dA : asOffset = magicSize + headerSize + (padding (magicSize + headerSize)).length := rfl
  have dT : treeOffset s = asOffset + s.ases.length + (padding (asOffset + s.ases.length)).length := rfl
  have dN : netOffset s = treeOffset s + s.tree.length + (padding (treeOffset s + s.tree.length)).length := rfl
  have dC : countryOffset s = netOffset s + s.nets.length + (padding (netOffset s + s.nets.length)).length := rfl
  have dP : poolOffset s = countryOffset s + s.countries.length + (padding (countryOffset s + s.countries.length)).length := rfl
  rw [← dA] at oA
  rw [← dT] at oT
  rw [← dN] at oN
  rw [← dC] at oC
  rw [← dP] at oP
  have hm : magicSize + headerSize = 4200 := rfl
  rw [hm] at oA
  obtain ⟨ss, p1, p2, -⟩ := v.strings
  have hlast : 0 < s.pool.length ∧ s.pool[s.pool.length - 1]? = some 0 := by
    have hne : ∀ (l : List CStr), l ≠ [] → ∃ x, joinStr l = x ++ [0] := by
      intro l hl
      obtain ⟨l', a, rfl⟩ : ∃ l' a, l = l' ++ [a] := ⟨l.dropLast, l.getLast hl, (List.dropLast_concat_getLast hl).symm⟩
      exact ⟨joinStr l' ++ a, by rw [joinStr_append]; simp [joinStr]⟩
    obtain ⟨x, hx⟩ := hne ([] :: ss) (by simp)
    rw [p2, hx]
    simp
  unfold SectionOk SectionBefore
  simp only [w28, w36, w44, w52, w60, w64, Nat.reduceAdd, w32, w40, w48, w56]
  refine ⟨⟨oA.1, by omega, sA, by omega⟩, ⟨oT.1, by omega, sT, by omega⟩, ⟨oN.1, by omega, sN, by omega⟩, ⟨oC.1, by omega, sC, by omega⟩,
    ⟨oP.1, by omega, sP, by omega⟩, by omega, by omega, by omega, by omega, hlast.1, ?_⟩
  rw [fP, List.getElem?_append_right (by omega), List.getElem?_append_left (by omega)]
  rw [show poolOffset s + s.pool.length - 1 - preP.length = s.pool.length - 1 by omega]
  exact hlast.2

/-! ## C41 -/

/-- A file is opened only if it begins with "LOCDBXX" and version 1; otherwise the error is `ENOMSG`, or `ENOTSUP`
    if only the version differs. -/
theorem open_requires_magic (f : Bytes) :
    (∀ db, dbOpen f = .ok db → f.take 8 = [76, 79, 67, 68, 66, 88, 88, 1]) ∧
    (f.length < 8 ∨ f.take 7 ≠ [76, 79, 67, 68, 66, 88, 88] → dbOpen f = .error (.err ENOMSG)) ∧
    (8 ≤ f.length → f.take 7 = [76, 79, 67, 68, 66, 88, 88] → f[7]? ≠ some 1 → dbOpen f = .error (.err ENOTSUP)) := by
  have hm : magicBytes = [76, 79, 67, 68, 66, 88, 88] := rfl
  refine ⟨?_, ?_, ?_⟩
  · intro db h
    unfold dbOpen checkMagic at h
    by_cases h1 : f.length < magicSize
    · rw [if_pos h1] at h; rw [if_pos (by decide)] at h; cases h
    · rw [if_neg h1] at h
      by_cases h2 : f.take 7 = magicBytes
      · rw [if_pos h2] at h
        by_cases h3 : (f.drop 7).take 1 = [1]
        · have : f.take (7 + 1) = f.take 7 ++ (f.drop 7).take 1 := List.take_add
          exact this.trans (by rw [h2, h3]; rfl)
        · rw [if_neg h3] at h; rw [if_pos (by decide)] at h; cases h
      · rw [if_neg h2] at h; rw [if_pos (by decide)] at h; cases h
  · intro h
    have : checkMagic f = ENOMSG := by
      unfold checkMagic
      rcases h with h | h
      · rw [if_pos (show f.length < magicSize from h)]
      · split
        · rfl
        · rw [if_neg (by rw [hm]; exact h)]
    unfold dbOpen
    rw [this, if_pos (by decide)]
  · intro h1 h2 h3
    have : checkMagic f = ENOTSUP := by
      unfold checkMagic
      rw [if_neg (show ¬ f.length < magicSize from Nat.not_lt.mpr h1), if_pos (by rw [hm]; exact h2), if_neg]
      intro h4
      apply h3
      have := congrArg (·[0]?) h4
      simpa [List.getElem?_take, List.getElem?_drop] using this
    unfold dbOpen
    rw [this, if_pos (by decide)]

/-- Every file a writer produced is opened. -/
theorem open_written {K : Type} {ctz0 : Nat} (h0 : 8 ≤ ctz0) {key1 key2 : Option K} {ops : List (WOp K)} {e : WEnv K}
    {w : Writer K} {f : Bytes} (h : Written ctz0 key1 key2 ops e w f) : ∃ db, dbOpen f = .ok db := by
  obtain ⟨w0, s, sig1, sig2, tail, db, -, v, -⟩ := written_view h0 h
  exact ⟨db, v.opened⟩

/-- Unknown versions are refused and leave the writer as it is. -/
theorem write_refuses_unknown {K : Type} (e : WEnv K) (w : Writer K) (old : Bytes) (version : Nat) (hv : 2 ≤ version) :
    writerWrite e w old version = .ok (w, none) := by
  unfold writerWrite writeVersion
  rw [if_neg (by omega), if_neg (by omega)]

/-- Writing without keys never fails for a history of calls with strings below 512 KiB; the writer can go on
    being used. -/
theorem write_total {K : Type} {ctz0 : Nat} (h0 : 8 ≤ ctz0) (ops : List (WOp K)) (ho : ∀ op ∈ ops, OpOk ctz0 op)
    (hs : ∀ op ∈ ops, ShortOp op) (e : WEnv K) (he : e.ctz0 = ctz0) (old : Bytes) :
    ∃ w, Writes ctz0 none none ops w ∧ ∃ w' f, writerWrite e w old 0 = .ok (w', some f) := by
  obtain ⟨w, hw⟩ := writes_total h0 none none ops ho hs
  refine ⟨w, hw, ?_⟩
  obtain ⟨⟨s, w1⟩, hr⟩ := writeSections_total h0 (winv hw) hs he
  have hi := writeSections_inv (winv hw) he hr
  unfold writerWrite
  simp only [writeVersion, hr, hi.k1, hi.k2, signWith, if_true]
  exact ⟨_, _, rfl⟩

end Loc.Props
