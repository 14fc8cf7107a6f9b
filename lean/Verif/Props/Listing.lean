import Verif.Spec.Listing
import Verif.Props.Formats
import Verif.Props.Export
import Verif.Props.Bogon
import Verif.Props.Bindings
import Verif.Props.Enum
/-
C72: the commands of `location` that list objects of the database.
-/
namespace Loc.Props
open Loc Loc.Spec

/-! ## Printing -/

theorem familyArg_zero {family : Option Family} : familyArg family = 0 ↔ family = none := by
  cases family with
  | none => exact ⟨fun _ => rfl, fun _ => rfl⟩
  | some G => cases G <;> simp [familyArg]

theorem makeTag_setName (name : CStr) (family : Option Family) : makeTag name (familyArg family) = setName name family := by
  unfold makeTag setName
  cases family with
  | none => rfl
  | some G => cases G <;> rfl

/-- A command whose search succeeds is a writer from its start to its end. -/
theorem listNetworks_run {σ : Type} {fmt : Format} {expo : Nat → Nat} {family : Nat} {name : CStr} {next : σ → Res (Next Network × σ)} {fuel : Nat}
    {s s' : σ} {out f : OutFile} {L : List Network} (hd : drain next fuel s = .ok (L, true, s'))
    (hw : writerRun fmt expo (makeTag name family) family (L.map netText) out = .ok f) :
    listNetworks fmt expo family name next fuel (.ret s) out = .ok (f, 0) := by
  unfold writerRun at hw
  unfold listNetworks
  cases hs : writerStart fmt expo (makeTag name family) family out with
  | raised => rw [hs] at hw; cases hw
  | ok g =>
    rw [hs] at hw
    simp only [hd, if_true]
    simp only [List.foldl_map, List.length_map] at hw
    cases hw
    rfl

theorem shows_all {L : List Network} (hb : ∀ n ∈ L, Block n) : ShowsAll (L.map netText) L := by
  induction L with
  | nil => exact .nil
  | cons n L ih => exact .cons (netText_shows (hb n List.mem_cons_self)) (ih fun m hm => hb m (List.mem_cons_of_mem _ hm))

theorem run_single {fmt : Format} {expo : Nat → Nat} {family : Nat} {name : CStr} {nets : List CStr} {out f : OutFile}
    (h : listRunOn fmt expo family [(name, nets)] out = .ok f) : writerRun fmt expo (makeTag name family) family nets out = .ok f := by
  unfold listRunOn at h
  cases hw : writerRun fmt expo (makeTag name family) family nets out with
  | raised => rw [hw] at h; cases h
  | ok g => rw [hw] at h; exact h

/-- The writers on networks of the family. -/
theorem writer_reads {fmt : Format} {expo : Nat → Nat} {family : Option Family} {name : CStr} (hn : Plain name) {L : List Network}
    (hb : ∀ n ∈ L, Block n) (ha : Ascending L) (hf : ∀ n ∈ L, InFamilyArg family n) {kind : FileKind} (hu : FormatOk fmt expo family kind L.length) :
    ∃ f, writerRun fmt expo (makeTag name (familyArg family)) (familyArg family) (L.map netText) (newFile kind) = .ok f ∧
      UnderstoodAs fmt name family (L.map netText) f.content := by
  cases fmt with
  | list =>
    obtain ⟨f, h1, h2, -⟩ := list_format expo (familyArg family) (l := [(name, L)]) (by simpa using hb) kind
    refine ⟨f, run_single h1, ?_⟩
    simpa [UnderstoodAs] using h2
  | nftables =>
    obtain ⟨f, h1, h2, -⟩ := nftables_format expo (familyArg family) (l := [(name, L)]) (by simpa using hb) (by simpa using hn) kind
    refine ⟨f, run_single h1, ?_⟩
    unfold UnderstoodAs
    simp only
    rw [h2, List.map_cons, List.map_nil, makeTag_setName]
  | ipset =>
    obtain ⟨u1, u2, u3, u4⟩ := hu
    obtain ⟨f, h1, h2, -⟩ := ipset_format_partial (expo := expo) hn (family := familyArg family) (fun h => u1 (familyArg_zero.mp h)) hb ha (by
      intro n hm
      have h3 := hf n hm
      have h4 := (hb n hm).fam
      unfold InFamily
      cases family with
      | none => exact absurd rfl u1
      | some G =>
        cases G with
        | inet =>
          rw [h4.mpr h3]
          simp [familyArg]
        | inet6 =>
          have : n.family = .inet6 := by
            cases hg : n.family with
            | inet => exact absurd (h4.mp hg) h3
            | inet6 => rfl
          rw [this]
          simp [familyArg]) u3 u4 u2
    refine ⟨f, h1, ?_⟩
    unfold UnderstoodAs
    simp only
    rw [h2, makeTag_setName]
    congr 3
    cases family with
    | none => exact absurd rfl u1
    | some G => cases G <;> rfl
  | xtGeoip => exact hu.elim

theorem ofFamily_arg (family : Option Family) (n : Network) : OfFamily (familyArg family) n ↔ InFamilyArg family n := by
  unfold OfFamily InFamilyArg
  cases family with
  | none => simp [familyArg]
  | some G => cases G <;> simp [familyArg]

/-- The networks a search with a filter finds. -/
theorem filter_selection {K : Type} {ctz0 : Nat} (h0 : 8 ≤ ctz0) {key1 key2 : Option K} {ops : List (WOp K)} {e : WEnv K}
    {w : Writer K} {f : Bytes} (h : Written ctz0 key1 key2 ops e w f) {flt : Filter} (hflt : FilterOk flt) (p : Network → Prop)
    (hp : ∀ n ∈ w.networks.networks, Wanted flt (readBack n) ↔ p n) :
    Selection w.networks.networks p ((w.networks.networks.map readBack).filter (matchNetwork flt)) := by
  obtain ⟨db, ho, hh⟩ := written_holds h0 h
  have hmem : ∀ m, m ∈ (w.networks.networks.map readBack).filter (matchNetwork flt) ↔ ∃ n ∈ w.networks.networks, p n ∧ readBack n = m := by
    intro m
    rw [List.mem_filter, List.mem_map]
    constructor
    · rintro ⟨⟨n, hn, rfl⟩, hm⟩
      exact ⟨n, hn, (hp n hn).mp ((matchNetwork_iff hflt (readBack_block ((mem_networks_wf hh.wf).mp hn).1) (readBack_countryOk (hh.country n hn))).mp hm), rfl⟩
    · rintro ⟨n, hn, hpn, rfl⟩
      exact ⟨⟨n, hn, rfl⟩, (matchNetwork_iff hflt (readBack_block ((mem_networks_wf hh.wf).mp hn).1) (readBack_countryOk (hh.country n hn))).mpr ((hp n hn).mpr hpn)⟩
  refine ⟨?_, ?_, ?_, ?_⟩
  · refine List.Pairwise.sublist List.filter_sublist ?_
    rw [List.pairwise_map]
    exact networks_ascending hh.wf.1
  · intro m hm
    obtain ⟨n, hn, -, rfl⟩ := (hmem m).mp hm
    exact readBack_block ((mem_networks_wf hh.wf).mp hn).1
  · intro n hn hpn
    exact ⟨readBack n, (hmem _).mpr ⟨n, hn, hpn, rfl⟩, readFrom_readBack n⟩
  · intro m hm
    obtain ⟨n, hn, hpn, rfl⟩ := (hmem m).mp hm
    exact ⟨n, hn, hpn, readFrom_readBack n⟩

theorem sameData_family {n m : Network} (h : SameData n m) (family : Option Family) : InFamilyArg family m ↔ InFamilyArg family n := by
  have : IsV4 m.first ↔ IsV4 n.first := by
    unfold IsV4
    rw [h.1.1]
  unfold InFamilyArg
  cases family with
  | none => rfl
  | some G =>
    cases G with
    | inet => exact this
    | inet6 => exact not_congr this

/-- The networks a search with a filter finds, and what a command that prints them prints. -/
theorem listing_filter {K : Type} {ctz0 : Nat} (h0 : 8 ≤ ctz0) {key1 key2 : Option K} {ops : List (WOp K)} {e : WEnv K}
    {w : Writer K} {f : Bytes} (h : Written ctz0 key1 key2 ops e w f) {db : Db} (ho : dbOpen f = .ok db)
    (hd : ¬ TooDeep (· ∈ w.networks.networks)) (hv : ∀ n ∈ w.networks.networks, ¬ AroundV4 n) (family : Option Family) {flt : Filter}
    (hflt : FilterOk flt) {name : CStr} (hn : Plain name) (p : Network → Prop)
    (hp : ∀ n ∈ w.networks.networks, Wanted flt (readBack n) ↔ InFamilyArg family n ∧ p n) :
    ∃ L, Selection w.networks.networks (fun n => InFamilyArg family n ∧ p n) L ∧
      PrintsAll (fun fmt expo kind fuel => listNetworks fmt expo (familyArg family) name (nextNetwork db) fuel (.ret (enumNew flt)) (newFile kind))
        name family L := by
  obtain ⟨db', ho', hh⟩ := written_holds h0 h
  rw [ho] at ho'
  cases ho'
  have hs := filter_selection h0 h hflt _ hp
  refine ⟨_, hs, _, (w.networks.networks.map readBack).length + 1, shows_all hs.2.1, fun fmt expo kind hu fuel hfuel => ?_⟩
  obtain ⟨g, h1, h2⟩ := writer_reads (fmt := fmt) (expo := expo) hn hs.2.1 hs.1 (by
    intro m hm
    obtain ⟨n, -, hn, hs⟩ := hs.2.2.2 m hm
    exact (sameData_family hs family).mpr hn.1) hu
  obtain ⟨s, h3, -⟩ := enum_aux hh hd hv flt fuel (by simp at hfuel ⊢; omega)
  exact ⟨g, listNetworks_run h3 h1, h2⟩

/-- An address that the database assigns to a network with `p` belongs to a network in the selection. -/
theorem selection_covers {K : Type} {ctz0 : Nat} (h0 : 8 ≤ ctz0) {key1 key2 : Option K} {ops : List (WOp K)} {e : WEnv K}
    {w : Writer K} {f : Bytes} (h : Written ctz0 key1 key2 ops e w f) {db : Db} (ho : dbOpen f = .ok db) {p : Network → Prop} {L : List Network}
    (hL : Selection w.networks.networks p L) {a : Addr} {m : Network} (hl : lookup db a = .ok (.ok (some m))) (hp : ∀ n, SameData n m → p n) :
    ∃ n ∈ L, Contains n a := by
  obtain ⟨hb, hc, k, hk, hs, hpr⟩ := lookup_sound h0 h ho hl
  obtain ⟨x, hx, hd⟩ := hL.2.2.1 k hk.1 (hp k ⟨hs, hpr⟩)
  refine ⟨x, hx, ?_⟩
  have hxb := hL.2.1 x hx
  have h1 := hb.last_eq
  have h2 := hxb.last_eq
  have h3 := hs.1
  have h4 := hs.2
  have h5 := hd.1.1
  have h6 := hd.1.2
  rw [h6] at h2
  rw [h4] at h1
  unfold Contains at hc ⊢
  omega

theorem sameData_asn {n m : Network} (h : SameData n m) : m.asn = n.asn := congrArg (·.2.1) h.2

theorem sameData_country {n m : Network} (h : SameData n m) : (props m).1 = (props n).1 := congrArg (·.1) h.2

theorem sameData_flags {n m : Network} (h : SameData n m) {i : Nat} (hi : i < 16) : m.flags.getLsbD i = n.flags.getLsbD i := by
  have h1 : m.flags = BitVec.ofNat 32 (n.flags.toNat % 2 ^ 16) := congrArg (·.2.2) h.2
  rw [h1, BitVec.getLsbD_ofNat, Nat.testBit_mod_two_pow, ← BitVec.testBit_toNat]
  simp only [hi, decide_true, Bool.true_and, show i < 32 by omega]

/-! ## By AS -/

theorem numLoop_numeral (k : Nat) : Numeral 10 k (numLoop 10 (k + 1) k) := by
  obtain ⟨ds, k1, k2, k3, k4, k5, -⟩ := num_aux (base := 10) (by decide) (by decide) k k
    (Nat.lt_of_lt_of_le (Nat.lt_pow_self (by decide)) (Nat.pow_le_pow_right (by decide) (by omega)))
  exact ⟨ds, k1, k2, k3, k4, k5⟩

theorem intStr_text (n : Int) : IntText n (intStr n) ∧ 10 ∉ intStr n ∧ 32 ∉ intStr n := by
  have hn := numLoop_numeral n.natAbs
  have hc := numeral_chars hn
  have h1 : (10 : Byte) ∉ numLoop 10 (n.natAbs + 1) n.natAbs := fun hm => hc 10 hm (by decide)
  have h2 : (32 : Byte) ∉ numLoop 10 (n.natAbs + 1) n.natAbs := fun hm => hc 32 hm (by decide)
  unfold intStr
  by_cases h : n < 0
  · rw [if_pos h]
    refine ⟨.inr ⟨n.natAbs, _, by omega, by omega, hn, rfl⟩, ?_, ?_⟩
    · rw [List.mem_cons]
      rintro (h | h)
      · revert h; decide
      · exact h1 h
    · rw [List.mem_cons]
      rintro (h | h)
      · revert h; decide
      · exact h2 h
  · rw [if_neg h]
    exact ⟨.inl ⟨n.natAbs, by omega, hn⟩, h1, h2⟩

/-- The networks that `list-networks-by-as` prints, for any number of 64 bits: those with the AS number that is left of it in
    32 bits. -/
theorem list_by_as_number {K : Type} {ctz0 : Nat} (h0 : 8 ≤ ctz0) {key1 key2 : Option K} {ops : List (WOp K)} {e : WEnv K}
    {w : Writer K} {f : Bytes} (h : Written ctz0 key1 key2 ops e w f) {db : Db} (ho : dbOpen f = .ok db)
    (hd : ¬ TooDeep (· ∈ w.networks.networks)) (hv : ∀ n ∈ w.networks.networks, ¬ AroundV4 n) (family : Option Family)
    {asn : Int} (h1 : -2 ^ 63 ≤ asn) (h2 : asn < 2 ^ 63) :
    ∃ L name, Selection w.networks.networks (fun n => InFamilyArg family n ∧ (n.asn.toNat : Int) = asn % 2 ^ 32) L ∧ IntText asn name ∧
      PrintsAll (fun fmt expo kind fuel => listByAs db fmt expo family fuel asn (newFile kind)) ([65, 83] ++ name) family L := by
  obtain ⟨t1, t2, t3⟩ := intStr_text asn
  obtain ⟨L, l1, l2⟩ := listing_filter h0 h ho hd hv family (flt := ⟨familyArg family, none, some [⟨BitVec.ofInt 32 asn, none⟩], 0⟩)
    (by intro l hl; cases hl) (name := [65, 83] ++ intStr asn) (by
      refine ⟨by simp, ?_, ?_⟩
      · rw [List.mem_append]
        rintro (h | h)
        · revert h; decide
        · exact t2 h
      · rw [List.mem_append]
        rintro (h | h)
        · revert h; decide
        · exact t3 h) (fun n => (n.asn.toNat : Int) = asn % 2 ^ 32) (by
      intro n _
      show OfFamily (familyArg family) (readBack n) ∧ _ ↔ _
      rw [ofFamily_arg]
      refine and_congr Iff.rfl ?_
      have hx : (BitVec.ofInt 32 asn = n.asn) ↔ (n.asn.toNat : Int) = asn % 2 ^ 32 := by
        rw [← BitVec.toNat_inj, BitVec.toNat_ofInt]
        have := Int.emod_nonneg asn (b := 2 ^ 32) (by decide)
        omega
      rw [← hx]
      constructor
      · rintro (⟨-, h, -⟩ | ⟨l, h, -⟩ | ⟨l, h, x, hx, he⟩ | ⟨i, h, -⟩)
        · cases h
        · cases h
        · cases h
          rw [List.mem_singleton] at hx
          subst hx
          exact he
        · simp at h
      · exact fun h => .inr (.inr (.inl ⟨_, rfl, _, List.mem_singleton.mpr rfl, h⟩)))
  refine ⟨L, _, l1, t1, ?_⟩
  have hcmd : ∀ fmt expo kind fuel, listByAs db fmt expo family fuel asn (newFile kind) =
      listNetworks fmt expo (familyArg family) ([65, 83] ++ intStr asn) (nextNetwork db) fuel
        (.ret (enumNew ⟨familyArg family, none, some [⟨BitVec.ofInt 32 asn, none⟩], 0⟩)) (newFile kind) := by
    intro fmt expo kind fuel
    have ha : argAsns asn = .ret [⟨BitVec.ofInt 32 asn, none⟩] := by
      unfold argAsns
      rw [if_neg (by omega)]
      rfl
    unfold listByAs
    rw [ha]
  simp only [hcmd]
  exact l2

/-- C72: `list-networks-by-as N` prints exactly the networks of the database (of the family, if one is given) with the AS
    number N, in ascending order, in the chosen format, under the name "ASN", and exits with 0; every address that a lookup
    assigns to the AS belongs to one of them.  Missing: other numbers (`list_by_as_violated_number`), and the databases that
    enumerations do not cover (C16, C19). -/
theorem list_by_as_partial {K : Type} {ctz0 : Nat} (h0 : 8 ≤ ctz0) {key1 key2 : Option K} {ops : List (WOp K)} {e : WEnv K}
    {w : Writer K} {f : Bytes} (h : Written ctz0 key1 key2 ops e w f) {db : Db} (ho : dbOpen f = .ok db)
    (hd : ¬ TooDeep (· ∈ w.networks.networks)) (hv : ∀ n ∈ w.networks.networks, ¬ AroundV4 n) (family : Option Family)
    {asn : Nat} (ha : asn < 2 ^ 32) :
    ∃ L name, Numeral 10 asn name ∧ Selection w.networks.networks (fun n => InFamilyArg family n ∧ n.asn.toNat = asn) L ∧
      PrintsAll (fun fmt expo kind fuel => listByAs db fmt expo family fuel asn (newFile kind)) ([65, 83] ++ name) family L ∧
      ∀ a m, lookup db a = .ok (.ok (some m)) → InFamilyArg family m → m.asn.toNat = asn → ∃ n ∈ L, Contains n a := by
  obtain ⟨L, name, l1, l2, l3⟩ := list_by_as_number h0 h ho hd hv family (asn := (asn : Int)) (by omega) (by omega)
  have hp : (fun n : Network => InFamilyArg family n ∧ (n.asn.toNat : Int) = (asn : Int) % 2 ^ 32) = fun n => InFamilyArg family n ∧ n.asn.toNat = asn := by
    funext n
    congr 1
    rw [eq_iff_iff]
    omega
  rw [hp] at l1
  refine ⟨L, name, ?_, l1, l3, ?_⟩
  · rcases l2 with ⟨k, h1, h2⟩ | ⟨k, d, h1, h2, -⟩
    · rwa [show asn = k by omega]
    · omega
  · intro a m hl hf hm
    refine selection_covers h0 h ho l1 hl fun n hn => ⟨(sameData_family hn family).mp hf, ?_⟩
    rw [← sameData_asn hn]
    exact hm

/-- Numbers that need more than 64 bits are refused with exit code 1 (with 2, as other invalid input, only if the format
    `ipset` is missing a family); the list is empty. -/
theorem list_by_as_refused (db : Db) (expo : Nat → Nat) (family : Option Family) (fuel : Nat) {asn : Int} (ha : asn < -2 ^ 63 ∨ 2 ^ 63 ≤ asn)
    (kind : FileKind) : listByAs db .list expo family fuel asn (newFile kind) = .ok (newFile kind, 1) := by
  unfold listByAs argAsns
  rw [if_pos ha]
  rfl

/-! ## By country -/

/-- C72: `list-networks-by-cc CODE` prints exactly the networks of the database (of the family, if one is given) with the
    country code, in ascending order, in the chosen format, under the code as a name, and exits with 0; every address that a
    lookup assigns to the country belongs to one of them.  Missing: the databases that enumerations do not cover (C16, C19). -/
theorem list_by_country_partial {K : Type} {ctz0 : Nat} (h0 : 8 ≤ ctz0) {key1 key2 : Option K} {ops : List (WOp K)} {e : WEnv K}
    {w : Writer K} {f : Bytes} (h : Written ctz0 key1 key2 ops e w f) {db : Db} (ho : dbOpen f = .ok db)
    (hd : ¬ TooDeep (· ∈ w.networks.networks)) (hv : ∀ n ∈ w.networks.networks, ¬ AroundV4 n) (family : Option Family)
    {code : CStr} (hc : ValidCC code) :
    ∃ L, Selection w.networks.networks (fun n => InFamilyArg family n ∧ (props n).1 = code) L ∧
      PrintsAll (fun fmt expo kind fuel => listByCountry db fmt expo family fuel code (newFile kind)) code family L ∧
      ∀ a m, lookup db a = .ok (.ok (some m)) → InFamilyArg family m → (props m).1 = code → ∃ n ∈ L, Contains n a := by
  obtain ⟨c, hx, he⟩ := countryNew_valid hc
  have hcl : countryListAppend [] c = [c] := rfl
  obtain ⟨L, l1, l2⟩ := listing_filter h0 h ho hd hv family (flt := ⟨familyArg family, some [c], none, 0⟩)
    (by
      intro l hl c' hc'
      cases hl
      rw [List.mem_singleton] at hc'
      subst hc'
      rw [he]
      exact (ccIsValid_iff code).mpr hc) (name := code) (by
      obtain ⟨c0, c1, rfl, g1, g2, g3, g4, -⟩ := hc
      refine ⟨by simp, ?_, ?_⟩
      · intro hm
        simp only [List.mem_cons, List.not_mem_nil, or_false] at hm
        rcases hm with rfl | rfl
        · revert g1; decide
        · revert g3; decide
      · intro hm
        simp only [List.mem_cons, List.not_mem_nil, or_false] at hm
        rcases hm with rfl | rfl
        · revert g1; decide
        · revert g3; decide) (fun n => (props n).1 = code) (by
      intro n _
      show OfFamily (familyArg family) (readBack n) ∧ _ ↔ _
      rw [ofFamily_arg]
      refine and_congr Iff.rfl ?_
      rw [← sameData_country (readFrom_readBack n)]
      constructor
      · rintro (⟨h, -⟩ | ⟨l, h, x, hx, he'⟩ | ⟨l, h, -⟩ | ⟨i, h, -⟩)
        · cases h
        · cases h
          rw [List.mem_singleton] at hx
          subst hx
          rw [← he', he]
        · cases h
        · simp at h
      · exact fun h => .inr (.inl ⟨_, rfl, _, List.mem_singleton.mpr rfl, he.trans h.symm⟩))
  refine ⟨L, l1, ?_, ?_⟩
  · have hcmd : ∀ fmt expo kind fuel, listByCountry db fmt expo family fuel code (newFile kind) =
        listNetworks fmt expo (familyArg family) code (nextNetwork db) fuel (.ret (enumNew ⟨familyArg family, some [c], none, 0⟩)) (newFile kind) := by
      intro fmt expo kind fuel
      unfold listByCountry argCountries
      rw [hx]
      rfl
    simp only [hcmd]
    exact l2
  · intro a m hl hf hm
    refine selection_covers h0 h ho l1 hl fun n hn => ⟨(sameData_family hn family).mp hf, ?_⟩
    rw [← sameData_country hn]
    exact hm

/-- C72 violated: invalid input is to be reported with exit code 2, but a text that is no country code (also a special one:
    A1, XD) ends the command with 1. -/
theorem list_by_country_violated_code (db : Db) (expo : Nat → Nat) (family : Option Family) (fuel : Nat) {code : CStr} (hc : ¬ ValidCC code)
    (kind : FileKind) : listByCountry db .list expo family fuel code (newFile kind) = .ok (newFile kind, 1) := by
  unfold listByCountry argCountries
  rcases countryNew_cases code with ⟨h, -⟩ | ⟨-, h⟩
  · exact absurd h hc
  · rw [h]
    rfl

/-! ## By flags -/

theorem flag_bits (i : Nat) : (FLAG_ANONYMOUS_PROXY.getLsbD i = decide (i = 0)) ∧ (FLAG_SATELLITE_PROVIDER.getLsbD i = decide (i = 1)) ∧
    (FLAG_ANYCAST.getLsbD i = decide (i = 2)) ∧ (FLAG_DROP.getLsbD i = decide (i = 3)) := by
  by_cases h : i < 32
  · revert i
    decide
  · have h1 : ∀ x : BitVec 32, x.getLsbD i = false := fun x => BitVec.getLsbD_of_ge _ _ (by omega)
    simp only [h1]
    simp
    omega

theorem flagArgs_bit (a : FlagArgs) (i : Nat) : (flagArgs a).getLsbD i = true ↔ (a.anonymousProxy = true ∧ i = 0) ∨
    (a.satelliteProvider = true ∧ i = 1) ∨ (a.anycast = true ∧ i = 2) ∨ (a.drop = true ∧ i = 3) := by
  obtain ⟨b1, b2, b3, b4⟩ := flag_bits i
  obtain ⟨p, s, y, d⟩ := a
  unfold flagArgs
  cases p <;> cases s <;> cases y <;> cases d <;>
    simp [BitVec.getLsbD_or, b1, b2, b3, b4, or_assoc]

/-- Without a flag nothing is printed, and the exit code is 2. -/
theorem list_by_flags_none (db : Db) (fmt : Format) (expo : Nat → Nat) (family : Option Family) (fuel : Nat) (out : OutFile) :
    listByFlags db fmt expo family fuel ⟨false, false, false, false⟩ out = .ok (out, 2) := rfl

/-- C72: `list-networks-by-flags` with at least one option prints exactly the networks of the database (of the family, if one
    is given) with one of the flags, in ascending order, in the chosen format, and exits with 0; every address that a lookup
    assigns to a network with one of the flags belongs to one of them.  Missing: the databases that enumerations do not cover
    (C16, C19). -/
theorem list_by_flags_partial {K : Type} {ctz0 : Nat} (h0 : 8 ≤ ctz0) {key1 key2 : Option K} {ops : List (WOp K)} {e : WEnv K}
    {w : Writer K} {f : Bytes} (h : Written ctz0 key1 key2 ops e w f) {db : Db} (ho : dbOpen f = .ok db)
    (hd : ¬ TooDeep (· ∈ w.networks.networks)) (hv : ∀ n ∈ w.networks.networks, ¬ AroundV4 n) (family : Option Family)
    {a : FlagArgs} (ha : a ≠ ⟨false, false, false, false⟩) :
    ∃ L, Selection w.networks.networks (fun n => InFamilyArg family n ∧ HasOneOf a n) L ∧
      PrintsAll (fun fmt expo kind fuel => listByFlags db fmt expo family fuel a (newFile kind)) strCustom family L ∧
      ∀ x m, lookup db x = .ok (.ok (some m)) → InFamilyArg family m → HasOneOf a m → ∃ n ∈ L, Contains n x := by
  have hne : flagArgs a ≠ 0 := by
    obtain ⟨p, s, y, d⟩ := a
    revert ha
    revert p s y d
    decide
  have hone : ∀ n, HasOneOf a n ↔ ∃ i, (flagArgs a).getLsbD i = true ∧ n.flags.getLsbD i = true := by
    intro n
    simp only [flagArgs_bit]
    unfold HasOneOf
    constructor
    · rintro (⟨h1, h2⟩ | ⟨h1, h2⟩ | ⟨h1, h2⟩ | ⟨h1, h2⟩)
      · exact ⟨0, .inl ⟨h1, rfl⟩, h2⟩
      · exact ⟨1, .inr (.inl ⟨h1, rfl⟩), h2⟩
      · exact ⟨2, .inr (.inr (.inl ⟨h1, rfl⟩)), h2⟩
      · exact ⟨3, .inr (.inr (.inr ⟨h1, rfl⟩)), h2⟩
    · rintro ⟨i, (⟨h1, rfl⟩ | ⟨h1, rfl⟩ | ⟨h1, rfl⟩ | ⟨h1, rfl⟩), h2⟩
      · exact .inl ⟨h1, h2⟩
      · exact .inr (.inl ⟨h1, h2⟩)
      · exact .inr (.inr (.inl ⟨h1, h2⟩))
      · exact .inr (.inr (.inr ⟨h1, h2⟩))
  have hsame : ∀ n m, SameData n m → (HasOneOf a m ↔ HasOneOf a n) := by
    intro n m hn
    unfold HasOneOf
    rw [sameData_flags hn (by decide), sameData_flags hn (by decide), sameData_flags hn (by decide), sameData_flags hn (by decide)]
  obtain ⟨L, l1, l2⟩ := listing_filter h0 h ho hd hv family (flt := ⟨familyArg family, none, none, flagArgs a⟩)
    (by intro l hl; cases hl) (name := strCustom) (by decide) (HasOneOf a) (by
      intro n _
      show OfFamily (familyArg family) (readBack n) ∧ _ ↔ _
      rw [ofFamily_arg]
      refine and_congr Iff.rfl ?_
      rw [← hsame n _ (readFrom_readBack n), hone]
      constructor
      · rintro (⟨-, -, h⟩ | ⟨l, h, -⟩ | ⟨l, h, -⟩ | h)
        · exact absurd h hne
        · cases h
        · cases h
        · exact h
      · exact fun h => .inr (.inr (.inr h)))
  refine ⟨L, l1, ?_, ?_⟩
  · have hcmd : ∀ fmt expo kind fuel, listByFlags db fmt expo family fuel a (newFile kind) =
        listNetworks fmt expo (familyArg family) strCustom (nextNetwork db) fuel (.ret (enumNew ⟨familyArg family, none, none, flagArgs a⟩)) (newFile kind) := by
      intro fmt expo kind fuel
      unfold listByFlags
      rw [if_neg hne]
    simp only [hcmd]
    exact l2
  · intro x m hl hf hm
    exact selection_covers h0 h ho l1 hl fun n hn => ⟨(sameData_family hn family).mp hf, (hsame n m hn).mp hm⟩

/-! ## Bogons -/

/-- C72 for `list-bogons`, in the formats `list` and `nftables`: if the bogon enumeration succeeds (`BogonsOk`, C29), blocks are
    printed that cover every address of a family with networks (with a country) that belongs to none of them, and only those
    if the gaps have exact summaries.  Missing: the format `ipset`, and what C29 does not cover. -/
theorem list_bogons_partial {K : Type} {ctz0 : Nat} (h0 : 8 ≤ ctz0) {key1 key2 : Option K} {ops : List (WOp K)} {e : WEnv K}
    {w : Writer K} {f : Bytes} (h : Written ctz0 key1 key2 ops e w f) {db : Db} (ho : dbOpen f = .ok db)
    (hd : ¬ TooDeep (· ∈ w.networks.networks)) (hv : ∀ n ∈ w.networks.networks, ¬ AroundV4 n) (family : Option Family) :
    ∃ found, Selection w.networks.networks (InFamilyArg family) found ∧
      (BogonsOk (withCountry found) → ∃ R lines steps, ShowsAll lines R ∧
        (∀ fmt expo kind, fmt = .list ∨ fmt = .nftables → ∀ fuel, steps ≤ fuel →
          ∃ out, listBogons db fmt expo family fuel (newFile kind) = .ok (out, 0) ∧ UnderstoodAs fmt strBogons family lines out.content) ∧
        (∀ x, (∃ n ∈ withCountry found, (IsV4 n.first ↔ IsV4 x)) → ¬ Covers (withCountry found) x → CoveredInFamily R x) ∧
        ((∀ lo hi, MaximalGap (withCountry found) lo hi → ExactRange lo hi) →
          ∀ x, CoveredInFamily R x ↔ (∃ n ∈ withCountry found, (IsV4 n.first ↔ IsV4 x)) ∧ ¬ Covers (withCountry found) x)) := by
  have hs := filter_selection h0 h (flt := ⟨familyArg family, none, none, 0⟩) (by intro l hl; cases hl) (InFamilyArg family) (by
      intro n _
      show OfFamily (familyArg family) (readBack n) ∧ _ ↔ _
      rw [ofFamily_arg]
      exact ⟨fun h => h.1, fun h => ⟨h, .inl ⟨rfl, rfl, rfl⟩⟩⟩)
  obtain ⟨found, steps, g1, g2⟩ := bogon_exact_partial h0 h ho hd hv ⟨familyArg family, none, none, 0⟩
  have hfound : found = (w.networks.networks.map readBack).filter (matchNetwork ⟨familyArg family, none, none, 0⟩) := by
    obtain ⟨db', ho', hh⟩ := written_holds h0 h
    rw [ho] at ho'
    cases ho'
    obtain ⟨s, h3, -⟩ := enum_aux hh hd hv ⟨familyArg family, none, none, 0⟩ ((w.networks.networks.map readBack).length + 1 + steps) (by simp; omega)
    obtain ⟨s', h4⟩ := g1 ((w.networks.networks.map readBack).length + 1 + steps) (by omega)
    rw [h3] at h4
    cases h4
    rfl
  rw [← hfound] at hs
  refine ⟨found, hs, fun hok => ?_⟩
  obtain ⟨R, s', steps', r1, r2, r3, r4⟩ := g2 hok
  refine ⟨R, _, steps', shows_all r2, ?_, r3, r4⟩
  intro fmt expo kind hfmt fuel hfuel
  have hw : ∃ g, writerRun fmt expo (makeTag strBogons (familyArg family)) (familyArg family) (R.map netText) (newFile kind) = .ok g ∧
      UnderstoodAs fmt strBogons family (R.map netText) g.content := by
    rcases hfmt with rfl | rfl
    · obtain ⟨g, h1, h2, -⟩ := list_format expo (familyArg family) (l := [(strBogons, R)]) (by simpa using r2) kind
      refine ⟨g, run_single h1, ?_⟩
      simpa [UnderstoodAs] using h2
    · obtain ⟨g, h1, h2, -⟩ := nftables_format expo (familyArg family) (l := [(strBogons, R)]) (by simpa using r2) (by simp; decide) kind
      refine ⟨g, run_single h1, ?_⟩
      unfold UnderstoodAs
      simp only
      rw [h2, List.map_cons, List.map_nil, makeTag_setName]
  obtain ⟨g, h1, h2⟩ := hw
  exact ⟨g, listNetworks_run (r1 fuel fuel hfuel hfuel) h1, h2⟩

/-! ## ASes -/

/-- C72: `search-as TEXT` prints one line for every AS whose name contains the text in upper or lower case, in ascending order
    of the numbers: "AS", the number, and the name; it exits with 0.  Missing: numbers from 2^31 on, which are printed as
    negative numbers (`as_text_violated`). -/
theorem search_as_partial {K : Type} {ctz0 : Nat} (h0 : 8 ≤ ctz0) {key1 key2 : Option K} {ops : List (WOp K)} {e : WEnv K}
    {w : Writer K} {f : Bytes} (h : Written ctz0 key1 key2 ops e w f) {db : Db} (ho : dbOpen f = .ok db) (query : CStr) :
    ∃ (found : List AS) (lines : List CStr) (steps : Nat), (∀ fuel, steps ≤ fuel → searchAs db fuel query = .ok (lines, 0)) ∧
      found.Pairwise (fun a b => a.number.toNat < b.number.toNat) ∧
      (∀ number name, (⟨number, some name⟩ : AS) ∈ found ↔ (∃ given, asesOf ops number = some given ∧ name = given.getD []) ∧ Occurs query name) ∧
      (∀ a ∈ found, a.name ≠ none) ∧
      ((∀ a ∈ found, a.number.toNat < 2 ^ 31) → List.Forall₂ (fun a line => AsText a.number.toNat a.name line) found lines) := by
  obtain ⟨db', ho', l, l1, l2, l3, l4⟩ := as_enumeration h0 h
  rw [ho] at ho'
  cases ho'
  obtain ⟨found, f1, f2, f3⟩ := l4 query (l.length + 1) (by omega)
  refine ⟨found, found.map asStr, l.length + 1, fun fuel hf => ?_, l2.sublist f2, ?_, ?_, ?_⟩
  · obtain ⟨found', f1', f2', f3'⟩ := l4 query fuel (by omega)
    have hsame : found' = found := by
      have hp : ∀ a b : AS, a.number.toNat < b.number.toNat → b.number.toNat < a.number.toNat → a = b := by intro a b h1 h2; omega
      have hperm : found'.Perm found := by
        refine (List.perm_ext_iff_of_nodup ?_ ?_).mpr fun a => by rw [f3', f3]
        · exact (l2.sublist f2').imp fun hlt he => by rw [he] at hlt; omega
        · exact (l2.sublist f2).imp fun hlt he => by rw [he] at hlt; omega
      exact hperm.eq_of_pairwise (fun a b _ _ h1 h2 => hp a b h1 h2) (l2.sublist f2') (l2.sublist f2)
    subst hsame
    unfold searchAs
    rw [f1']
    rfl
  · intro number name
    rw [f3, l3]
    constructor
    · rintro ⟨⟨given, h1, h2⟩, n, h3, h4⟩
      cases h3
      cases h2
      refine ⟨⟨given, h1, ?_⟩, h4⟩
      cases given <;> rfl
    · rintro ⟨⟨given, h1, rfl⟩, h2⟩
      refine ⟨⟨given, h1, ?_⟩, _, rfl, h2⟩
      cases given <;> rfl
  · intro a ha
    obtain ⟨-, n, hn, -⟩ := (f3 a).mp ha
    rw [hn]
    exact fun h => by cases h
  · intro hsmall
    clear f1 f2 f3
    induction found with
    | nil => exact .nil
    | cons a found ih =>
      exact .cons (as_text_partial a (hsmall a List.mem_cons_self)) (ih fun b hb => hsmall b (List.mem_cons_of_mem _ hb))

/-! ## Countries -/

/-- C72: `list-countries` prints one line for every country of the database in the order of the first additions: the code,
    and with the options the code of the continent and the name; it exits with 0.  Missing: continents if there is a
    country without one (`list_countries_violated`, `country_violated_continent`). -/
theorem list_countries_partial {K : Type} {ctz0 : Nat} (h0 : 8 ≤ ctz0) {key1 key2 : Option K} {ops : List (WOp K)} {e : WEnv K}
    {w : Writer K} {f : Bytes} (h : Written ctz0 key1 key2 ops e w f) {db : Db} (ho : dbOpen f = .ok db) :
    ∃ (codes : List CStr) (steps : Nat), codes.Nodup ∧ codes.Sublist (codesAdded ops) ∧ (∀ code, code ∈ codes ↔ countriesOf ops code ≠ none) ∧
      ∀ continent name, (continent = true → ∀ code cont nm, countriesOf ops code = some (cont, nm) → cont ≠ none) →
        ∃ lines, (∀ fuel, steps ≤ fuel → listCountries db fuel continent name = .ok (lines, 0)) ∧
          List.Forall₂ (fun code line => ∃ cont nm, countriesOf ops code = some (cont, nm) ∧
            line = countryText continent name code (cont.getD []) (nm.getD [])) codes lines := by
  obtain ⟨db', ho', l, l1, l2, l3, l4, l5⟩ := country_enumeration_partial h0 h
  rw [ho] at ho'
  cases ho'
  refine ⟨_, l.length + 1, l2, l3, l4, fun continent name hc => ?_⟩
  have key : ∀ l : List Country, (∀ c ∈ l, ∃ continent name, countriesOf ops (countryGetCode c) = some (continent, name) ∧
        c.name = some (match name with | some s => s | none => []) ∧ (continent ≠ none → countryContinent c = continent)) →
      ∃ lines, countryLines continent name l = (lines, none) ∧
        List.Forall₂ (fun code line => ∃ cont nm, countriesOf ops code = some (cont, nm) ∧
            line = countryText continent name code (cont.getD []) (nm.getD [])) (l.map countryGetCode) lines := by
    intro l
    induction l with
    | nil => exact fun _ => ⟨[], rfl, .nil⟩
    | cons c l ih =>
      intro hl
      obtain ⟨lines, i1, i2⟩ := ih fun x hx => hl x (List.mem_cons_of_mem _ hx)
      obtain ⟨cont, nm, c1, c2, c3⟩ := hl c List.mem_cons_self
      have hline : countryLine continent name c = .ret (countryText continent name (countryGetCode c) (cont.getD []) (nm.getD [])) := by
        have hn : c.name = some (nm.getD []) := by rw [c2]; cases nm <;> rfl
        unfold countryLine countryText
        rw [hn]
        cases continent with
        | false => cases name <;> simp [joinWords]
        | true =>
          have h1 := hc rfl _ _ _ c1
          rw [c3 h1]
          cases cont with
          | none => exact absurd rfl h1
          | some k => cases name <;> simp [joinWords]
      refine ⟨_ :: lines, ?_, .cons ⟨cont, nm, c1, rfl⟩ i2⟩
      rw [countryLines, hline]
      simp only [i1]
  obtain ⟨lines, k1, k2⟩ := key l l5
  refine ⟨lines, fun fuel hf => ?_, k2⟩
  unfold listCountries
  rw [l1 fuel (by omega)]
  simp only [k1, if_true]

/-- An environment in which uninitialised memory is zero. -/
def zeroEnv : WEnv Unit := { demoEnv with junkContinent := (0, 0) }

/-- Japan without a continent, Germany in Europe. -/
def mixedOps : List (WOp Unit) :=
  [.addCountry (some [74, 80]) none none, .addCountry (some [68, 69]) (some [69, 85]) none]

/-- C72 violated: a country without a continent ends `list-countries --show-continent` with exit code 1; it and the countries
    after it are not listed. -/
theorem list_countries_violated : ∃ w f db, Written 32 none none mixedOps zeroEnv w f ∧ dbOpen f = .ok db ∧
    countriesOf mixedOps [68, 69] = some (some [69, 85], none) ∧ listCountries db 3 true false = .ok ([], 1) := by
  obtain ⟨w, f, db, h1, h2, h3⟩ := ask_written (e := zeroEnv) (ops := mixedOps) (q := fun db => listCountries db 3 true false)
    (x := ([], 1)) rfl
    (by
      intro op h
      simp only [mixedOps, List.mem_cons, List.not_mem_nil, or_false] at h
      rcases h with rfl | rfl
      · exact ⟨strOk_some _ (by decide), strOk_none, strOk_none⟩
      · exact ⟨strOk_some _ (by decide), strOk_some _ (by decide), strOk_none⟩)
    (by decide +kernel)
  exact ⟨w, f, db, h1, h2, by decide, h3⟩

/-! ## The formats -/

/-- The format `ipset` without a family is refused with exit code 2, and `xt_geoip` never works (exit code 1); nothing is
    printed. -/
theorem list_format_refused {σ : Type} (expo : Nat → Nat) (family : Nat) (name : CStr) (next : σ → Res (Next Network × σ)) (fuel : Nat)
    (start : Call σ) (out : OutFile) : listNetworks .ipset expo 0 name next fuel start out = .ok (out, 2) ∧
    listNetworks .xtGeoip expo family name next fuel start out = .ok (out, 1) := ⟨rfl, rfl⟩

/-- If an enumeration fails, the exit code is 2, and the networks that were found are printed before. -/
theorem list_failure {σ : Type} {fmt : Format} {expo : Nat → Nat} {family : Nat} {name : CStr} {next : σ → Res (Next Network × σ)} {fuel : Nat}
    {s s' : σ} {out f : OutFile} {L : List Network} (hd : drain next fuel s = .ok (L, false, s')) (hs : writerStart fmt expo (makeTag name family) family out = .ok f) :
    ∃ f', listNetworks fmt expo family name next fuel (.ret s) out = .ok (f', 2) ∧
      f' = L.foldl (fun f n => filePut f (networkLine fmt (makeTag name family) (netText n))) f := by
  unfold listNetworks
  rw [hs]
  simp only [hd]
  exact ⟨_, rfl, rfl⟩

/-! ## The arguments of `export` -/

theorem decVal_digit (c : Byte) : decVal c = (digitOf c).filter (· < 10) := by
  revert c
  decide +kernel

theorem asObject_iff (s : CStr) (x : Nat) : asObject s = some x ↔ NamesAs s x := by
  have hfun : decVal = fun c => (digitOf c).filter (· < 10) := funext decVal_digit
  unfold NamesAs numberOf
  constructor
  · intro h
    unfold asObject at h
    split at h
    · rename_i d ds
      refine ⟨d :: ds, rfl, ?_⟩
      rw [hfun] at h
      exact h
    · cases h
  · rintro ⟨d, rfl, h⟩
    cases d with
    | nil => cases h
    | cons d ds =>
      unfold asObject
      rw [hfun]
      exact h

theorem special_iff (s : CStr) : specialCodes.contains s = true ↔ specialBit s ≠ none := by
  unfold specialCodes specialBit
  simp only [List.contains_cons, List.contains_nil, Bool.or_false, Bool.or_eq_true, beq_iff_eq]
  constructor
  · rintro (rfl | rfl | rfl | rfl) <;> decide
  · intro h
    apply Classical.byContradiction
    intro hn
    simp only [not_or] at hn
    obtain ⟨h1, h2, h3, h4⟩ := hn
    rw [if_neg h1, if_neg h2, if_neg h3, if_neg h4] at h
    exact h rfl

/-- A country code does not name an AS. -/
theorem names_country_as {s : CStr} (h : NamesCountry s) (x : Nat) : ¬ NamesAs s x := by
  rintro ⟨d, rfl, hd⟩
  have hd : d ≠ [] := by rintro rfl; cases hd
  rcases h with ⟨c0, c1, h, -⟩ | h
  · cases h
    exact hd rfl
  · refine h ?_
    unfold specialBit
    rw [if_neg (by simp), if_neg (by simp), if_neg (by simp), if_neg (by simp)]

/-- The arguments of `export` are divided into country codes and AS numbers; nothing else is taken. -/
theorem export_objects (objects : List CStr) : (∀ c, c ∈ (exportObjects objects).1 ↔ c ∈ objects ∧ NamesCountry c) ∧
    ∀ x, x ∈ (exportObjects objects).2 ↔ ∃ s ∈ objects, NamesAs s x := by
  induction objects with
  | nil => exact ⟨fun c => by simp [exportObjects], fun x => by simp [exportObjects]⟩
  | cons s rest ih =>
    obtain ⟨i1, i2⟩ := ih
    have hcc : (ccIsValid (some s) || specialCodes.contains s) = true ↔ NamesCountry s := by
      rw [Bool.or_eq_true, ccIsValid_iff, special_iff]
      rfl
    cases hx : asObject s with
    | some y =>
      have hs : NamesAs s y := (asObject_iff s y).mp hx
      have he : exportObjects (s :: rest) = ((exportObjects rest).1, y :: (exportObjects rest).2) := by
        rw [exportObjects, hx]
      rw [he]
      refine ⟨fun c => ?_, fun x => ?_⟩
      · rw [i1, List.mem_cons]
        constructor
        · exact fun ⟨h1, h2⟩ => ⟨.inr h1, h2⟩
        · rintro ⟨rfl | h1, h2⟩
          · exact absurd hs (names_country_as h2 y)
          · exact ⟨h1, h2⟩
      · simp only [List.mem_cons, i2]
        constructor
        · rintro (rfl | ⟨t, h1, h2⟩)
          · exact ⟨s, .inl rfl, hs⟩
          · exact ⟨t, .inr h1, h2⟩
        · rintro ⟨t, rfl | h1, h2⟩
          · left
            have := (asObject_iff _ x).mpr h2
            rw [hx] at this
            cases this
            rfl
          · exact .inr ⟨t, h1, h2⟩
    | none =>
      have hs : ∀ x, ¬ NamesAs s x := fun x h => by
        have := (asObject_iff s x).mpr h
        rw [hx] at this
        cases this
      have hA : ∀ x, (∃ t ∈ s :: rest, NamesAs t x) ↔ ∃ t ∈ rest, NamesAs t x := by
        intro x
        constructor
        · rintro ⟨t, ht, h⟩
          rcases List.mem_cons.mp ht with rfl | ht
          · exact absurd h (hs x)
          · exact ⟨t, ht, h⟩
        · rintro ⟨t, ht, h⟩
          exact ⟨t, List.mem_cons_of_mem _ ht, h⟩
      cases hv : (ccIsValid (some s) || specialCodes.contains s) with
      | true =>
        have he : exportObjects (s :: rest) = (s :: (exportObjects rest).1, (exportObjects rest).2) := by
          rw [exportObjects, hx]
          simp only [hv, if_true]
        rw [he]
        refine ⟨fun c => ?_, fun x => by rw [i2, hA]⟩
        simp only [List.mem_cons, i1]
        constructor
        · rintro (rfl | ⟨h1, h2⟩)
          · exact ⟨.inl rfl, hcc.mp hv⟩
          · exact ⟨.inr h1, h2⟩
        · rintro ⟨rfl | h1, h2⟩
          · exact .inl rfl
          · exact .inr ⟨h1, h2⟩
      | false =>
        have he : exportObjects (s :: rest) = ((exportObjects rest).1, (exportObjects rest).2) := by
          rw [exportObjects, hx]
          simp only [hv]
          rfl
        rw [he]
        refine ⟨fun c => ?_, fun x => by rw [i2, hA]⟩
        rw [i1, List.mem_cons]
        constructor
        · exact fun ⟨h1, h2⟩ => ⟨.inr h1, h2⟩
        · rintro ⟨rfl | h1, h2⟩
          · rw [hcc.mpr h2] at hv
            cases hv
          · exact ⟨h1, h2⟩

theorem exportFamilies_iff (family : Option Family) (k : Nat) :
    k ∈ exportFamilies family ↔ (k = 2 ∧ family ≠ some .inet6) ∨ (k = 10 ∧ family ≠ some .inet) := by
  unfold exportFamilies
  cases family with
  | none => simp; omega
  | some G => cases G <;> simp [familyArg]

theorem exportCall_named (db : Db) (fuel : Nat) (family : Option Family) {objects : List CStr} (h : exportObjects objects ≠ ([], [])) :
    exportCall db fuel family objects = .ok (.ret ((exportObjects objects).1, (exportObjects objects).2, exportFamilies family)) := by
  unfold exportCall
  split
  · rename_i he
    exact absurd he h
  · rename_i he
    rw [he]

theorem exportCall_unnamed {db : Db} {fuel : Nat} (family : Option Family) {objects : List CStr} (h : exportObjects objects = ([], []))
    {l : List Country} {s : Nat} (hd : drain (nextCountry db) fuel 0 = .ok (l, true, s)) :
    exportCall db fuel family objects = .ok (.ret (specialCodes ++ l.map countryGetCode, [], exportFamilies family)) := by
  unfold exportCall
  split
  · rw [hd]
  · rename_i h1 h2
    exact absurd h2 (by rw [h]; intro he; cases he; exact h1 rfl rfl)

theorem codesAdded_valid {K : Type} {ops : List (WOp K)} {c : CStr} (h : c ∈ codesAdded ops) : ValidCC c := by
  unfold codesAdded at h
  obtain ⟨op, -, h⟩ := List.mem_filterMap.mp h
  split at h
  · split at h
    · cases h; assumption
    · cases h
  · cases h

/-- C72 for `export`: with at least one argument that names a country or an AS, exactly the named ones are exported, for the
    family that was given or for both; with no argument at all, the special codes and every country of the database.  Missing:
    arguments none of which names anything (`export_arguments_violated`). -/
theorem export_arguments_partial {K : Type} {ctz0 : Nat} (h0 : 8 ≤ ctz0) {key1 key2 : Option K} {ops : List (WOp K)} {e : WEnv K}
    {w : Writer K} {f : Bytes} (h : Written ctz0 key1 key2 ops e w f) {db : Db} (ho : dbOpen f = .ok db) (family : Option Family) (objects : List CStr)
    (hobj : objects = [] ∨ ∃ s ∈ objects, NamesCountry s ∨ ∃ x, NamesAs s x) :
    ∃ (countries : List CStr) (asns families : List Nat) (steps : Nat),
      (∀ fuel, steps ≤ fuel → exportCall db fuel family objects = .ok (.ret (countries, asns, families))) ∧ CodesOk countries ∧
      (∀ x, x ∈ asns ↔ ∃ s ∈ objects, NamesAs s x) ∧
      (∀ c, c ∈ countries ↔ if objects = [] then specialBit c ≠ none ∨ countriesOf ops c ≠ none else c ∈ objects ∧ NamesCountry c) ∧
      ∀ k, k ∈ families ↔ (k = 2 ∧ family ≠ some .inet6) ∨ (k = 10 ∧ family ≠ some .inet) := by
  obtain ⟨o1, o2⟩ := export_objects objects
  by_cases he : objects = []
  · subst he
    obtain ⟨db', ho', l, l1, -, l3, l4, -⟩ := country_enumeration_partial h0 h
    rw [ho] at ho'
    cases ho'
    refine ⟨_, _, _, l.length + 1, fun fuel hf => exportCall_unnamed family rfl (l1 fuel (by omega)), ?_, ?_, ?_, exportFamilies_iff family⟩
    · intro c hc
      rcases List.mem_append.mp hc with hc | hc
      · exact .inr ((special_iff c).mp (by simpa using hc))
      · exact .inl (codesAdded_valid (l3.subset hc))
    · simp
    · intro c
      rw [if_pos rfl, List.mem_append, l4, ← special_iff]
      simp
  · rcases hobj with hobj | ⟨s, hs, hn⟩
    · exact absurd hobj he
    have hne : exportObjects objects ≠ ([], []) := by
      intro hx
      rw [hx] at o1 o2
      rcases hn with hn | ⟨x, hn⟩
      · exact absurd ((o1 s).mpr ⟨hs, hn⟩) (by simp)
      · exact absurd ((o2 x).mpr ⟨s, hs, hn⟩) (by simp)
    refine ⟨_, _, _, 0, fun fuel _ => exportCall_named db fuel family hne, fun c hc => ((o1 c).mp hc).2, o2, ?_, exportFamilies_iff family⟩
    intro c
    rw [if_neg he]
    exact o1 c

/-- C72 violated: if no argument names a country or an AS (a code in small letters, say), everything is exported instead of
    nothing. -/
theorem export_arguments_violated {K : Type} {ctz0 : Nat} (h0 : 8 ≤ ctz0) {key1 key2 : Option K} {ops : List (WOp K)} {e : WEnv K}
    {w : Writer K} {f : Bytes} (h : Written ctz0 key1 key2 ops e w f) {db : Db} (ho : dbOpen f = .ok db) (family : Option Family) {objects : List CStr}
    (hobj : ∀ s ∈ objects, ¬ NamesCountry s ∧ ∀ x, ¬ NamesAs s x) :
    ∃ (countries : List CStr) (steps : Nat), (∀ fuel, steps ≤ fuel → exportCall db fuel family objects = exportCall db fuel family [] ∧
        ∃ families, exportCall db fuel family objects = .ok (.ret (countries, [], families))) ∧
      ∀ c, c ∈ countries ↔ specialBit c ≠ none ∨ countriesOf ops c ≠ none := by
  obtain ⟨o1, o2⟩ := export_objects objects
  have hx : exportObjects objects = ([], []) := by
    refine Prod.ext (List.eq_nil_iff_forall_not_mem.mpr fun c hc => ?_) (List.eq_nil_iff_forall_not_mem.mpr fun x hx => ?_)
    · obtain ⟨h1, h2⟩ := (o1 c).mp hc
      exact (hobj c h1).1 h2
    · obtain ⟨s, h1, h2⟩ := (o2 x).mp hx
      exact (hobj s h1).2 x h2
  obtain ⟨db', ho', l, l1, -, l3, l4, -⟩ := country_enumeration_partial h0 h
  rw [ho] at ho'
  cases ho'
  refine ⟨specialCodes ++ l.map countryGetCode, l.length + 1, fun fuel hf => ?_, ?_⟩
  · rw [exportCall_unnamed family hx (l1 fuel (by omega)), exportCall_unnamed family (objects := []) rfl (l1 fuel (by omega))]
    exact ⟨rfl, _, rfl⟩
  · intro c
    rw [List.mem_append, l4, ← special_iff]
    simp

/-! ## Examples and violations -/

/-- All formats but `xt_geoip` can be used for one network of a known family in a pipe. -/
example : FormatOk .list expo1 none .append 1 ∧ FormatOk .nftables expo1 none .append 1 ∧ FormatOk .ipset expo1 (some .inet) .pipe 1 :=
  ⟨trivial, trivial, by decide, by decide, by decide, by decide⟩

/-- "A1" and "de" are no country codes; a number with 65 bits is refused. -/
example : ¬ ValidCC [65, 49] ∧ ¬ ValidCC [100, 101] ∧ ((2 : Int) ^ 64 < -2 ^ 63 ∨ 2 ^ 63 ≤ (2 : Int) ^ 64) := by decide

/-- "de" names nothing, "DE", "A1" and "AS65000" do. -/
example : (¬ NamesCountry [100, 101] ∧ ∀ x, ¬ NamesAs [100, 101] x) ∧ NamesCountry [68, 69] ∧ NamesCountry [65, 49] ∧
    NamesAs [65, 83, 54, 53, 48, 48, 48] 65000 := by
  refine ⟨⟨?_, ?_⟩, .inl (by decide), .inr (by decide), ⟨_, rfl, by decide⟩⟩
  · rintro (h | h) <;> revert h <;> decide
  · rintro x ⟨d, h, -⟩
    cases h

/-- The example database (10.0.0.0/8 in DE with AS 65000, 10.1.0.0/16 without properties) meets the hypotheses; the listings
    for AS 65000 and for DE consist of 10.0.0.0/8, the one for FR is empty. -/
example : ∃ w f db, Written 32 none none demoOps demoEnv w f ∧ dbOpen f = .ok db ∧ ¬ TooDeep (· ∈ w.networks.networks) ∧
    (∀ n ∈ w.networks.networks, ¬ AroundV4 n) ∧
    (∀ n ∈ w.networks.networks, (InFamilyArg (some .inet) n ∧ n.asn.toNat = 65000 ↔ n = net10_8) ∧ ((props n).1 = [68, 69] ↔ n = net10_8) ∧
      ¬ (props n).1 = [70, 82]) := by
  obtain ⟨w, f, db, h1, h2, h3, h4, h5⟩ := demo_plain
  refine ⟨w, f, db, h1, h2, h4, h5, ?_⟩
  rw [h3]
  intro n hn
  simp only [List.mem_cons, List.not_mem_nil, or_false] at hn
  unfold InFamilyArg IsV4
  rcases hn with rfl | rfl
  · refine ⟨⟨fun _ => rfl, fun _ => by decide⟩, ⟨fun _ => rfl, fun _ => by decide⟩, by decide⟩
  · refine ⟨⟨fun h => absurd h (by decide), fun h => ?_⟩, ⟨fun h => absurd h (by decide), fun h => ?_⟩, by decide⟩
    · exact absurd (congrArg Network.pfx h) (by decide)
    · exact absurd (congrArg Network.pfx h) (by decide)

/-- C72 violated for addresses: the listing of an AS also covers addresses which lookups assign to a network inside that does
    not belong to it: 10.1.2.3 in the example database is in 10.1.0.0/16 without an AS, and in the listing of AS 65000. -/
theorem list_by_as_violated_nested : ∃ w f db, Written 32 none none demoOps demoEnv w f ∧ dbOpen f = .ok db ∧ ∃ L name,
    PrintsAll (fun fmt expo kind fuel => listByAs db fmt expo none fuel 65000 (newFile kind)) ([65, 83] ++ name) none L ∧
    (∃ n ∈ L, Contains n (ip4 10 1 2 3)) ∧ ∃ m, lookup db (ip4 10 1 2 3) = .ok (.ok (some m)) ∧ m.asn.toNat ≠ 65000 := by
  obtain ⟨w, f, db, h1, h2, h3, h4, h5⟩ := demo_plain
  refine ⟨w, f, db, h1, h2, ?_⟩
  obtain ⟨L, name, -, l1, l2, -⟩ := list_by_as_partial (by decide) h1 h2 h4 h5 none (asn := 65000) (by decide)
  refine ⟨L, name, l2, ?_, ?_⟩
  · obtain ⟨m, hm, hs⟩ := l1.2.2.1 net10_8 (by rw [h3]; exact List.mem_cons_self) ⟨trivial, by decide⟩
    refine ⟨m, hm, ?_⟩
    have hb := l1.2.1 m hm
    have e1 := hb.last_eq
    rw [hs.1.2] at e1
    have e2 := hs.1.1
    have e3 : value net10_8.first ≤ value (ip4 10 1 2 3) ∧ value (ip4 10 1 2 3) ≤ value net10_8.first + (2 ^ (128 - net10_8.pfx) - 1) := by decide +kernel
    unfold Contains
    omega
  · have hk : MostSpecific (· ∈ w.networks.networks) (ip4 10 1 2 3) net10_1_16 := by
      rw [h3]
      refine ⟨by simp, by decide +kernel, ?_⟩
      intro m hm
      revert m
      decide +kernel
    have hlp : LongestPrefixMatch (· ∈ w.networks.networks) db (ip4 10 1 2 3) := by
      apply lookup_longest_prefix_partial (by decide) h1 h2
      · rw [h3]; decide +kernel
      · rw [h3]
        have key : ∀ k ∈ [net10_8, net10_1_16], (∀ m ∈ [net10_8, net10_1_16], Contains m (ip4 10 1 2 3) → m.pfx ≤ k.pfx) →
            ¬ (k.pfx = 95 ∧ IsV4 (ip4 10 1 2 3)) ∧ ∀ m ∈ [net10_8, net10_1_16], k.pfx < m.pfx →
              ¬ value m.first / 2 ^ (128 - (k.pfx + 1)) = value (ip4 10 1 2 3) / 2 ^ (128 - (k.pfx + 1)) := by
          decide +kernel
        rintro k ⟨k1, k2, k3⟩
        exact key k k1 k3
    obtain ⟨r, r1, r2, -⟩ := hlp
    obtain ⟨m, rfl, hm⟩ := r2 _ hk
    refine ⟨m, r1, ?_⟩
    obtain ⟨-, -, k, hk', hs, hp⟩ := lookup_sound (by decide) h1 h2 r1
    have hkk : k = net10_1_16 := by
      have := hk'.1
      rw [h3] at this
      simp only [List.mem_cons, List.not_mem_nil, or_false] at this
      rcases this with rfl | rfl
      · exact absurd (hs.2.symm.trans hm.2) (by decide)
      · rfl
    have ha : m.asn = k.asn := congrArg (·.2.1) hp
    rw [ha, hkk]
    decide

/-- C72 violated: for the number 4295032296 = 2^32 + 65000, which no AS has, the networks of AS 65000 are listed. -/
theorem list_by_as_violated_number : ∃ w f db, Written 32 none none demoOps demoEnv w f ∧ dbOpen f = .ok db ∧ ∃ L name,
    PrintsAll (fun fmt expo kind fuel => listByAs db fmt expo none fuel 4295032296 (newFile kind)) ([65, 83] ++ name) none L ∧ IntText 4295032296 name ∧
    ∃ n ∈ L, n.asn = 65000 := by
  obtain ⟨w, f, db, h1, h2, h3, h4, h5⟩ := demo_plain
  refine ⟨w, f, db, h1, h2, ?_⟩
  obtain ⟨L, name, l1, l2, l3⟩ := list_by_as_number (by decide) h1 h2 h4 h5 none (asn := 4295032296) (by decide) (by decide)
  obtain ⟨m, hm, hs⟩ := l1.2.2.1 net10_8 (by rw [h3]; exact List.mem_cons_self) ⟨trivial, by decide⟩
  exact ⟨L, name, l3, l2, m, hm, sameData_asn hs⟩

end Loc.Props
