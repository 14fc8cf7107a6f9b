import Verif.Props.Bindings
/-
The commands `location lookup` and `location get-as`: C55.
-/
namespace Loc.Props
open Loc Loc.Spec

theorem countryCode_props (m : Network) : countryCode m = (props m).1 := by
  unfold countryCode props ccString
  by_cases h0 : m.cc0 = 0
  · simp [h0]
  · by_cases h1 : m.cc1 = 0 <;> simp [h0, h1]

/-- The code of a network that was found is empty or valid. -/
theorem found_country {K : Type} {ctz0 : Nat} (h0 : 8 ≤ ctz0) {key1 key2 : Option K} {ops : List (WOp K)} {e : WEnv K}
    {w : Writer K} {f : Bytes} (h : Written ctz0 key1 key2 ops e w f) {db : Db} (ho : dbOpen f = .ok db) {a : Addr} {m : Network}
    (hl : lookup db a = .ok (.ok (some m))) : (props m).1 = [] ∨ ValidCC (props m).1 := by
  obtain ⟨-, -, k, hk, -, hp⟩ := lookup_sound h0 h ho hl
  obtain ⟨db', ho', hh⟩ := written_holds h0 h
  have hc := hh.country k hk.1
  rw [congrArg (·.1) hp]
  simp only
  rcases hc with hc | hc
  · left; unfold props; simp [hc]
  · have hz := valid_ne_zero ((ccIsValid_iff _).mpr hc)
    right
    have : (props k).1 = [k.cc0, k.cc1] := by unfold props; simp only; rw [if_neg hz.1, if_neg hz.2]
    rw [this]
    exact hc

theorem cliCountry_ok {K : Type} {ctz0 : Nat} (h0 : 8 ≤ ctz0) {key1 key2 : Option K} {ops : List (WOp K)} {e : WEnv K}
    {w : Writer K} {f : Bytes} (h : Written ctz0 key1 key2 ops e w f) {db : Db} (ho : dbOpen f = .ok db)
    (horder : (codesAdded ops).Pairwise (fun a b => codeNumber a ≤ codeNumber b))
    (hcont : ∀ code continent name, countriesOf ops code = some (continent, name) → continent ≠ none)
    {m : Network} (hv : (props m).1 = [] ∨ ValidCC (props m).1) : cliCountry db m = .ok (.ret (CountryLine ops (props m).1)) := by
  unfold cliCountry CountryLine
  rw [countryCode_props]
  rcases hv with hv | hv
  · rw [hv]; rfl
  · have hne : (props m).1 ≠ [] := by
      intro hc
      rw [hc] at hv
      obtain ⟨_, _, hx, -⟩ := hv
      cases hx
    rw [if_neg (by simpa using hne), if_neg hne]
    obtain ⟨r, h1, h2⟩ := py_get_country_partial h0 h ho horder hcont _ hv
    rw [h1]
    unfold IsCountry at h2
    cases hk : countriesOf ops (props m).1 with
    | none =>
      rw [hk] at h2
      simp only at h2
      subst h2
      rfl
    | some p =>
      obtain ⟨continent, name⟩ := p
      rw [hk] at h2
      simp only at h2
      obtain ⟨c, rfl, -, -, h3⟩ := h2
      simp only
      rw [h3]

theorem cliAs_ok {K : Type} {ctz0 : Nat} (h0 : 8 ≤ ctz0) {key1 key2 : Option K} {ops : List (WOp K)} {e : WEnv K}
    {w : Writer K} {f : Bytes} (h : Written ctz0 key1 key2 ops e w f) {db : Db} (ho : dbOpen f = .ok db)
    {m : Network} (hm : m.asn.toNat < 2 ^ 31) : ∃ lines, cliAs db m = .ok (.ret lines) ∧ AsLine ops m.asn lines := by
  unfold cliAs AsLine
  by_cases hz : m.asn = 0
  · simp only [if_pos hz]; exact ⟨[], rfl, rfl⟩
  · simp only [if_neg hz]
    rw [py_get_as_partial h0 h ho _ hm]
    unfold KnownAs
    have hb : BitVec.ofNat 32 m.asn.toNat = m.asn := by simp
    rw [hb]
    cases hk : asesOf ops m.asn with
    | none =>
      refine ⟨_, rfl, _, ⟨_, decStr_numeral (by omega), ?_⟩, rfl⟩
      simp
    | some name =>
      refine ⟨_, rfl, _, ?_, rfl⟩
      exact as_text_partial ⟨m.asn, some (name.getD [])⟩ hm

theorem cliNetwork_ok {K : Type} {ctz0 : Nat} (h0 : 8 ≤ ctz0) {key1 key2 : Option K} {ops : List (WOp K)} {e : WEnv K}
    {w : Writer K} {f : Bytes} (h : Written ctz0 key1 key2 ops e w f) {db : Db} (ho : dbOpen f = .ok db)
    (horder : (codesAdded ops).Pairwise (fun a b => codeNumber a ≤ codeNumber b))
    (hcont : ∀ code continent name, countriesOf ops code = some (continent, name) → continent ≠ none)
    (s : Bytes) {m : Network} (hv : (props m).1 = [] ∨ ValidCC (props m).1) (hm : m.asn.toNat < 2 ^ 31) :
    ∃ lines, cliNetwork db s m = .ok (lines, none) ∧ NetworkLines ops s m lines := by
  obtain ⟨l, h1, h2⟩ := cliAs_ok h0 h ho hm
  unfold cliNetwork
  rw [cliCountry_ok h0 h ho horder hcont hv]
  simp only
  rw [h1]
  exact ⟨_, rfl, l, h2, rfl⟩

/-- `location lookup` prints for every address either that nothing was found, or the network that the library finds (see
    C15 and C16) with the name of its country as given to the writer (or else its code), number and name of the AS, and
    the flags that are set; the exit code tells whether all addresses were found.
    Missing from the full claim: texts that denote no address and AS numbers from 2^31 on, which end in an uncaught
    exception (`cli_lookup_violated`, `cli_lookup_overflow`), addresses that are stored as networks of their own (C18), and
    the histories excluded in C24. -/
theorem cli_lookup_partial {K : Type} {ctz0 : Nat} (h0 : 8 ≤ ctz0) {key1 key2 : Option K} {ops : List (WOp K)} {e : WEnv K}
    {w : Writer K} {f : Bytes} (h : Written ctz0 key1 key2 ops e w f) {db : Db} (ho : dbOpen f = .ok db)
    (horder : (codesAdded ops).Pairwise (fun a b => codeNumber a ≤ codeNumber b))
    (hcont : ∀ code continent name, countriesOf ops code = some (continent, name) → continent ≠ none)
    (hasn : ∀ n ∈ w.networks.networks, n.asn.toNat < 2 ^ 31)
    (args : List Bytes) (hargs : ∀ s ∈ args, (0 : Byte) ∉ s ∧ ∃ a, Denotes (beforeSlash s) a ∧ ¬ StoredHost (· ∈ w.networks.networks) a) :
    ∃ lines rs, cliLookup db 0 args = .ok (lines, .ret (if none ∈ rs then 1 else 0)) ∧
      Session ops (fun a r => lookup db a = .ok (.ok r)) args rs lines := by
  suffices hs : ∀ ret, ∃ lines rs, cliLookup db ret args = .ok (lines, .ret (if none ∈ rs then 1 else ret)) ∧
      Session ops (fun a r => lookup db a = .ok (.ok r)) args rs lines from hs 0
  induction args with
  | nil => exact fun ret => ⟨[], [], rfl, .nil⟩
  | cons s rest ih =>
    intro ret
    have ih := ih (fun s hs => hargs s (List.mem_cons_of_mem _ hs))
    obtain ⟨hz, a, ha, hn⟩ := hargs s List.mem_cons_self
    obtain ⟨r, h1, h2, -⟩ := py_lookup_partial h0 h ho s hz ha hn
    unfold cliLookup
    rw [h1]
    cases r with
    | none =>
      simp only
      obtain ⟨lines, rs, h3, h4⟩ := ih 1
      rw [h3]
      refine ⟨_, none :: rs, ?_, .nothing ha h2 h4⟩
      simp
    | some m =>
      simp only
      obtain ⟨-, -, k, hk, -, hp⟩ := lookup_sound h0 h ho h2
      have hm : m.asn = k.asn := congrArg (·.2.1) hp
      obtain ⟨l, h5, h6⟩ := cliNetwork_ok h0 h ho horder hcont s (found_country h0 h ho h2) (m := m) (by rw [hm]; exact hasn k hk.1)
      rw [h5]
      simp only
      obtain ⟨lines, rs, h3, h4⟩ := ih ret
      rw [h3]
      refine ⟨_, some m :: rs, ?_, .found ha h2 h6 h4⟩
      simp

/-- C55 violated: a text that denotes no address ends the command with an uncaught `OSError` instead of the message
    "Invalid IP address" and exit code 2, in every database. -/
theorem cli_lookup_violated (db : Db) (ret : Nat) (s : Bytes) (rest : List Bytes) (hs : (0 : Byte) ∉ s) (ha : ∀ a, ¬ Denotes (beforeSlash s) a) :
    cliLookup db ret (s :: rest) = .ok ([], .exc .os) := by
  unfold cliLookup
  rw [py_lookup_violated db s hs ha]

/-- C55 violated: a network with an AS number from 2^31 on ends the command with an uncaught `OverflowError`. -/
theorem cli_lookup_overflow {K : Type} {ctz0 : Nat} (h0 : 8 ≤ ctz0) {key1 key2 : Option K} {ops : List (WOp K)} {e : WEnv K}
    {w : Writer K} {f : Bytes} (h : Written ctz0 key1 key2 ops e w f) {db : Db} (ho : dbOpen f = .ok db) (ret : Nat)
    (s : Bytes) (rest : List Bytes) (hs : (0 : Byte) ∉ s) {a : Addr} (ha : Denotes (beforeSlash s) a) {m : Network}
    (hl : lookup db a = .ok (.ok (some m))) (hm : 2 ^ 31 ≤ m.asn.toNat) :
    ∃ lines, cliLookup db ret (s :: rest) = .ok (lines, .exc .overflow) := by
  have h1 : pyLookup db s = .ok (.ret (some m)) := by
    unfold pyLookup
    rw [argStr_ret hs]
    simp only
    rw [lookupFromString_ok db ha hl]
  have h2 : ∃ l, cliCountry db m = .ok (.ret l) := by
    unfold cliCountry
    rw [countryCode_props]
    rcases found_country h0 h ho hl with hv | hv
    · rw [hv]; exact ⟨_, rfl⟩
    · split
      · exact ⟨_, rfl⟩
      · obtain ⟨r, h3, -⟩ := py_get_country_sound h0 h ho _ hv
        rw [h3]
        cases r <;> exact ⟨_, rfl⟩
  obtain ⟨l, h2⟩ := h2
  have h3 : cliAs db m = .ok (.exc .overflow) := by
    unfold cliAs
    have hz : m.asn ≠ 0 := by
      intro hz
      rw [hz] at hm
      exact absurd hm (by decide)
    rw [if_neg hz, py_get_as_violated.1 db _ (by omega)]
  unfold cliLookup
  rw [h1]
  simp only
  unfold cliNetwork
  rw [h2]
  simp only
  rw [h3]
  exact ⟨_, rfl⟩

/-- `location get-as` prints for every argument that is a number below 2^31 the name of the AS that was given to the
    writer, or that it was not found; the exit code is 1 if one is no number or was not found.
    Missing from the full claim: numbers from 2^31 on (`cli_get_as_violated`). -/
theorem cli_get_as_partial {K : Type} {ctz0 : Nat} (h0 : 8 ≤ ctz0) {key1 key2 : Option K} {ops : List (WOp K)} {e : WEnv K}
    {w : Writer K} {f : Bytes} (h : Written ctz0 key1 key2 ops e w f) {db : Db} (ho : dbOpen f = .ok db) (args : List (Option Nat))
    (hargs : ∀ n, some n ∈ args → n < 2 ^ 31) :
    ∃ code, cliGetAs db 0 (args.map (Option.map Int.ofNat)) = .ok (args.map (AsAnswer ops), .ret code) ∧
      (code = 0 ↔ ∀ x ∈ args, ∃ n, x = some n ∧ asesOf ops (BitVec.ofNat 32 n) ≠ none) ∧ (code = 0 ∨ code = 1) := by
  suffices hs : ∀ ret, (ret = 0 ∨ ret = 1) → ∃ code, cliGetAs db ret (args.map (Option.map Int.ofNat)) = .ok (args.map (AsAnswer ops), .ret code) ∧
      (code = 0 ↔ ret = 0 ∧ ∀ x ∈ args, ∃ n, x = some n ∧ asesOf ops (BitVec.ofNat 32 n) ≠ none) ∧ (code = 0 ∨ code = 1) by
    obtain ⟨c, h1, h2, h3⟩ := hs 0 (.inl rfl)
    exact ⟨c, h1, by simpa using h2, h3⟩
  induction args with
  | nil => exact fun ret hret => ⟨ret, rfl, by simp, hret⟩
  | cons x rest ih =>
    intro ret hret
    have ih := ih (fun n hn => hargs n (List.mem_cons_of_mem _ hn))
    cases x with
    | none =>
      obtain ⟨c, h1, h2, h3⟩ := ih 1 (.inr rfl)
      refine ⟨c, ?_, ?_, h3⟩
      · simp only [List.map_cons, Option.map_none]
        unfold cliGetAs
        rw [h1]
        rfl
      · constructor
        · intro hc; have := (h2.mp hc).1; omega
        · intro hc
          obtain ⟨n, hn, -⟩ := hc.2 none List.mem_cons_self
          cases hn
    | some n =>
      have hn := hargs n List.mem_cons_self
      have hg := py_get_as_partial h0 h ho n hn
      unfold KnownAs at hg
      cases hk : asesOf ops (BitVec.ofNat 32 n) with
      | none =>
        rw [hk] at hg
        obtain ⟨c, h1, h2, h3⟩ := ih 1 (.inr rfl)
        refine ⟨c, ?_, ?_, h3⟩
        · simp only [List.map_cons, Option.map_some, Int.ofNat_eq_natCast]
          unfold cliGetAs
          rw [hg]
          simp only [Option.map_none]
          rw [h1]
          simp only [AsAnswer]
          rw [hk]
        · constructor
          · intro hc; have := (h2.mp hc).1; omega
          · intro hc
            obtain ⟨n', hn', hc'⟩ := hc.2 (some n) List.mem_cons_self
            cases hn'
            exact absurd hk hc'
      | some name =>
        rw [hk] at hg
        obtain ⟨c, h1, h2, h3⟩ := ih ret hret
        refine ⟨c, ?_, ?_, h3⟩
        · simp only [List.map_cons, Option.map_some, Int.ofNat_eq_natCast]
          unfold cliGetAs
          rw [hg]
          simp only [Option.map_some, pyAsName]
          rw [h1]
          simp only [AsAnswer]
          rw [hk]
          have : (BitVec.ofNat 32 n).toNat = n := by rw [BitVec.toNat_ofNat]; omega
          rw [this]
        · rw [h2]
          constructor
          · rintro ⟨a, b⟩
            refine ⟨a, fun x hx => ?_⟩
            rcases List.mem_cons.mp hx with rfl | hx
            · exact ⟨n, rfl, by rw [hk]; simp⟩
            · exact b x hx
          · rintro ⟨a, b⟩
            exact ⟨a, fun x hx => b x (List.mem_cons_of_mem _ hx)⟩

/-- C55 violated: a number from 2^31 on ends the command with an uncaught `OverflowError`. -/
theorem cli_get_as_violated (db : Db) (ret : Nat) (n : Int) (rest : List (Option Int)) (hn : 2 ^ 31 ≤ n) :
    cliGetAs db ret (some n :: rest) = .ok ([], .exc .overflow) := by
  unfold cliGetAs
  rw [py_get_as_violated.1 db n hn]

/-- In the example database, "10.1.2.3" meets the hypotheses of `cli_lookup_partial`. -/
example : ∃ w f db, Written 32 none none demoOps demoEnv w f ∧ dbOpen f = .ok db ∧
    (codesAdded demoOps).Pairwise (fun a b => codeNumber a ≤ codeNumber b) ∧
    (∀ n ∈ w.networks.networks, n.asn.toNat < 2 ^ 31) ∧
    ∀ s ∈ [text10], (0 : Byte) ∉ s ∧ ∃ a, Denotes (beforeSlash s) a ∧ ¬ StoredHost (· ∈ w.networks.networks) a := by
  obtain ⟨w, f, db, h, ho, hl⟩ := demo_file
  refine ⟨w, f, db, h, ho, by decide, by rw [hl]; decide, ?_⟩
  intro s hs
  rw [List.mem_singleton] at hs
  subst hs
  exact ⟨text10_denotes.1, _, text10_denotes.2, by rw [hl]; decide⟩

/-- 10.0.0.0/8 with AS2147483648 -/
def bigNet : Network := { net10_8 with asn := 0x80000000#32 }

def bigNetOps : List (WOp Unit) := [.addNetwork bigNet]

theorem bigNet_file : ∃ w f db, Written 32 none none bigNetOps demoEnv w f ∧ dbOpen f = .ok db ∧ w.networks.networks = [bigNet] := by
  refine example_file ?_ (by decide) (by decide +kernel) (by decide +kernel)
  intro op hop
  simp only [bigNetOps, List.mem_singleton] at hop
  subst hop
  exact Built.asn 0x80000000#32 (net10_8_built 32)

/-- In such a database `location lookup 10.1.2.3` crashes. -/
example : ∃ w f db lines, Written 32 none none bigNetOps demoEnv w f ∧ dbOpen f = .ok db ∧
    cliLookup db 0 [text10] = .ok (lines, .exc .overflow) := by
  obtain ⟨w, f, db, h, ho, hl⟩ := bigNet_file
  have hn : ¬ StoredHost (· ∈ w.networks.networks) (ip4 10 1 2 3) := by rw [hl]; decide
  obtain ⟨r, h1, h2, -⟩ := lookup_longest_prefix_disjoint (by decide) h ho hn (by rw [hl]; exact List.pairwise_singleton _ _)
    (by rw [hl]; decide)
  obtain ⟨m, rfl, -⟩ := h2 bigNet (by
    rw [hl]
    refine ⟨by decide, by decide, ?_⟩
    intro m hm _
    rw [List.mem_singleton] at hm; subst hm; decide)
  obtain ⟨-, -, k, hk, -, hp⟩ := lookup_sound (by decide) h ho h1
  have hkk := hk.1
  rw [hl, List.mem_singleton] at hkk
  subst hkk
  have hm : m.asn = bigNet.asn := congrArg (·.2.1) hp
  obtain ⟨lines, h3⟩ := cli_lookup_overflow (by decide) h ho 0 text10 [] text10_denotes.1 text10_denotes.2 h1 (by rw [hm]; decide)
  exact ⟨w, f, db, lines, h, ho, h3⟩

end Loc.Props
