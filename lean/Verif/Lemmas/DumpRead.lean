import Verif.Lemmas.Dump
import Verif.Props.Export
/-
What reading a dump gives; override files.
-/
namespace Loc
open Spec Loc.Props

/-! ## Values of a dump -/

/-- Every character of these texts is neither white space nor "#". -/
def Solid (s : CStr) : Prop := ∀ c ∈ s, ¬ White c ∧ c ≠ 35

theorem solid_tidy {s : CStr} (h : Solid s) : TidyName s :=
  ⟨fun hm => (h 10 hm).1 (by decide), fun hm => (h 35 hm).2 rfl, fun c hc => (h c (List.mem_of_mem_head? hc)).1,
    fun c hc => (h c (List.mem_of_getLast? hc)).1⟩

theorem solid_append {a b : CStr} (ha : Solid a) (hb : Solid b) : Solid (a ++ b) := fun c hc =>
  (List.mem_append.mp hc).elim (ha c) (hb c)

theorem hex_solid (c : Byte) : hexVal c ≠ none → ¬ White c ∧ c ≠ 35 :=
  forall_byte (P := fun c => hexVal c ≠ none → ¬ White c ∧ c ≠ 35) (by decide +kernel) c

theorem dec_solid (c : Byte) : decVal c ≠ none → ¬ White c ∧ c ≠ 35 :=
  forall_byte (P := fun c => decVal c ≠ none → ¬ White c ∧ c ≠ 35) (by decide +kernel) c

theorem numeral_solid {k : Nat} {s : CStr} (h : Numeral 10 k s) : Solid s := fun c hc => dec_solid c (numeral_chars h c hc)

theorem denotes_solid {s : CStr} {a : Addr} (h : Denotes s a) : Solid s := by
  intro c hc
  rcases h with h | ⟨l, h, -⟩
  · rcases (ipv6_chars h).2.2.2 c hc with rfl | rfl | h
    · decide
    · decide
    · exact hex_solid c h
  · rcases (ipv4_chars h).2 c hc with rfl | h
    · decide
    · exact dec_solid c h

theorem netText_solid {n : Network} (hb : Block n) : Solid (netText n) := by
  obtain ⟨t, d, p, m, h1, h2, -, h3, -⟩ := netText_shows hb
  rw [h1]
  refine solid_append (denotes_solid h2) ?_
  intro c hc
  rcases List.mem_cons.mp hc with rfl | hc
  · decide
  · exact numeral_solid h3 c hc

theorem code_solid {n : Network} (h : CountryOk n) : Solid (countryCode n) := by
  have hl : ∀ c : Byte, 65 ≤ c.toNat → c.toNat ≤ 90 → ¬ White c ∧ c ≠ 35 := fun c =>
    forall_byte (P := fun c => 65 ≤ c.toNat → c.toNat ≤ 90 → ¬ White c ∧ c ≠ 35) (by decide +kernel) c
  rcases h with h | ⟨c0, c1, h, h1, h2, h3, h4, -⟩
  · have : countryCode n = [] := by unfold countryCode ccString; rw [if_pos h]
    rw [this]
    intro c hc
    cases hc
  · cases h
    intro c hc
    have : c = n.cc0 ∨ c = n.cc1 := by
      unfold countryCode ccString at hc
      split at hc
      · cases hc
      · split at hc
        · exact .inl (List.mem_singleton.mp hc)
        · simpa using hc
    rcases this with rfl | rfl
    · exact hl _ h1 h2
    · exact hl _ h3 h4

theorem asn_numeral (x : BitVec 32) : Numeral 10 x.toNat (decStr x.toNat) := decStr_numeral (by have := x.isLt; omega)

/-! ## Entries of a dump -/

/-- The items of an AS -/
def asItems (number : Nat) (name : CStr) : List (CStr × CStr) := [(strAutNum, [65, 83] ++ decStr number), (strName, name)]

theorem dumpAs_entry (number : Nat) (name : CStr) : dumpAs number name = entryText (asItems number name) := by
  unfold dumpAs entryText asItems
  simp

/-- An item that is there or not -/
def itemIf (p : Prop) [Decidable p] (k v : CStr) : List (CStr × CStr) := if p then [(k, v)] else []

/-- The items of a network -/
def netItems (n : Network) : List (CStr × CStr) :=
  [(strNet, netText n)] ++ (itemIf (countryCode n ≠ []) strCountry (countryCode n) ++ (itemIf (n.asn ≠ 0) strAutNum (decStr n.asn.toNat) ++
  (itemIf (hasFlag n FLAG_ANONYMOUS_PROXY ≠ 0) strProxy strYes ++ (itemIf (hasFlag n FLAG_SATELLITE_PROVIDER ≠ 0) strSatellite strYes ++
  (itemIf (hasFlag n FLAG_ANYCAST ≠ 0) strAnycast strYes ++ itemIf (hasFlag n FLAG_DROP ≠ 0) strDropKey strYes)))))

theorem itemIf_text {p : Prop} [Decidable p] {k v : CStr} :
    ((itemIf p k v).flatMap fun x => dumpLine x.1 x.2) = if p then dumpLine k v else [] := by
  unfold itemIf
  split <;> simp

theorem dumpNetwork_entry (n : Network) : dumpNetwork n = entryText (netItems n) := by
  unfold dumpNetwork entryText netItems dumpFlags
  simp only [List.flatMap_append, itemIf_text, List.flatMap_cons, List.flatMap_nil, List.append_nil, List.cons_append]
  have h1 : (if (countryCode n).isEmpty then [] else dumpLine strCountry (countryCode n)) =
      if countryCode n ≠ [] then dumpLine strCountry (countryCode n) else [] := by
    cases countryCode n with
    | nil => rfl
    | cons => rfl
  have h2 : (if n.asn = 0 then [] else dumpLine strAutNum (decStr n.asn.toNat)) =
      if n.asn ≠ 0 then dumpLine strAutNum (decStr n.asn.toNat) else [] := by
    by_cases h : n.asn = 0
    · simp [h]
    · simp [h]
  rw [h1, h2]
  simp only [List.append_assoc, List.nil_append]

theorem mem_itemIf {p : Prop} [Decidable p] {k v : CStr} {x : CStr × CStr} (h : x ∈ itemIf p k v) : x = (k, v) := by
  unfold itemIf at h
  split at h
  · exact List.mem_singleton.mp h
  · cases h

/-- The keys of a network -/
def netKeys : List CStr := [strNet, strCountry, strAutNum, strProxy, strSatellite, strAnycast, strDropKey]

theorem netItems_keys (n : Network) : ((netItems n).map (·.1)).Sublist netKeys := by
  have h : ∀ (p : Prop) [Decidable p] (k v : CStr), ((itemIf p k v).map (·.1)).Sublist [k] := by
    intro p _ k v
    unfold itemIf
    split
    · exact List.Sublist.refl _
    · exact List.nil_sublist _
  unfold netItems netKeys
  simp only [List.map_append]
  exact (List.Sublist.refl [strNet]).append ((h _ _ _).append ((h _ _ _).append ((h _ _ _).append ((h _ _ _).append ((h _ _ _).append (h _ _ _))))))

theorem netItems_values {n : Network} (hb : Block n) (hc : CountryOk n) : ∀ x ∈ netItems n, TidyName x.2 := by
  intro x hx
  unfold netItems at hx
  simp only [List.mem_append, List.mem_singleton] at hx
  have hyes : TidyName strYes := by decide
  rcases hx with rfl | h | h | h | h | h | h
  · exact solid_tidy (netText_solid hb)
  · rw [mem_itemIf h]; exact solid_tidy (code_solid hc)
  · rw [mem_itemIf h]; exact solid_tidy (numeral_solid (asn_numeral n.asn))
  · rw [mem_itemIf h]; exact hyes
  · rw [mem_itemIf h]; exact hyes
  · rw [mem_itemIf h]; exact hyes
  · rw [mem_itemIf h]; exact hyes

theorem netItems_ok {n : Network} (hb : Block n) (hc : CountryOk n) : netItems n ≠ [] ∧ (∀ x ∈ netItems n, KeyOk x.1 ∧ TidyName x.2) ∧
    ((netItems n).map fun x => keyOf x.1).Nodup ∧ ∀ x ∈ netItems n, keyOf x.1 ≠ [103, 101, 111, 102, 101, 101, 100] := by
  have hk := netItems_keys n
  have hin : ∀ x ∈ netItems n, x.1 ∈ netKeys := fun x hx => hk.subset (List.mem_map_of_mem hx)
  have h1 : ∀ k ∈ netKeys, KeyOk k := by decide
  have h2 : (netKeys.map keyOf).Nodup := by decide
  have h3 : ∀ k ∈ netKeys, keyOf k ≠ [103, 101, 111, 102, 101, 101, 100] := by decide
  refine ⟨by unfold netItems; simp, fun x hx => ⟨h1 _ (hin x hx), netItems_values hb hc x hx⟩, ?_, fun x hx => h3 _ (hin x hx)⟩
  have := h2.sublist (hk.map keyOf)
  rw [List.map_map] at this
  exact this

theorem asItems_ok {number : Nat} {name : CStr} (hn : number < 10 ^ 10) (ht : TidyName name) :
    asItems number name ≠ [] ∧ (∀ x ∈ asItems number name, KeyOk x.1 ∧ TidyName x.2) ∧
    ((asItems number name).map fun x => keyOf x.1).Nodup ∧ ∀ x ∈ asItems number name, keyOf x.1 ≠ [103, 101, 111, 102, 101, 101, 100] := by
  have hAS : ∀ c ∈ [(65 : Byte), 83], ¬ White c ∧ c ≠ 35 := by decide
  have h1 : TidyName ([65, 83] ++ decStr number) := solid_tidy (solid_append (fun c hc => hAS c hc) (numeral_solid (decStr_numeral hn)))
  refine ⟨by unfold asItems; simp, ?_, by unfold asItems; simp only [List.map_cons, List.map_nil]; decide, ?_⟩
  · intro x hx
    unfold asItems at hx
    simp only [List.mem_cons, List.not_mem_nil, or_false] at hx
    rcases hx with rfl | rfl
    · exact ⟨(by decide : KeyOk strAutNum), h1⟩
    · exact ⟨(by decide : KeyOk strName), ht⟩
  · intro x hx
    unfold asItems at hx
    simp only [List.mem_cons, List.not_mem_nil, or_false] at hx
    rcases hx with rfl | rfl
    · show keyOf strAutNum ≠ _
      decide
    · show keyOf strName ≠ _
      decide

theorem describes_as {number : Nat} (name : CStr) (hn : number < 10 ^ 10) : DescribesAs (entryData (asItems number name)) number name :=
  ⟨rfl, ⟨decStr number, rfl, decStr_numeral hn⟩, rfl⟩

theorem lookup_itemIf (p : Prop) [Decidable p] (k v : CStr) (key : Bytes) :
    ((itemIf p k v).map itemData).lookup key = if p ∧ keyOf k = key then some (.text v) else none := by
  unfold itemIf
  by_cases hp : p
  · rw [if_pos hp]
    by_cases hk : keyOf k = key
    · rw [if_pos ⟨hp, hk⟩, List.map_cons, itemData, hk, List.lookup_cons_self]
    · rw [if_neg (fun h => hk h.2), List.map_cons, List.lookup_cons, itemData]
      have : (key == keyOf k) = false := by simpa using fun he => hk he.symm
      rw [this]
      rfl
  · rw [if_neg hp, if_neg (fun h => hp h.1)]
    rfl

theorem describes_net {n : Network} (hb : Block n) : DescribesNet (entryData (netItems n)) n := by
  have hkeys : keyOf strNet = ascii "net" ∧ keyOf strCountry = ascii "country" ∧ keyOf strAutNum = ascii "aut-num" ∧
    keyOf strProxy = ascii "is-anonymous-proxy" ∧ keyOf strSatellite = ascii "is-satellite-provider" ∧ keyOf strAnycast = ascii "is-anycast" ∧
    keyOf strDropKey = ascii "drop" := by decide
  have hflag : ∀ i < 32, ∀ f : BitVec 32, f = BitVec.twoPow 32 i → (hasFlag n f ≠ 0 ↔ n.flags.getLsbD i = true) := by
    rintro i hi f rfl
    exact hasFlag_bit n i hi
  have f0 := hflag 0 (by decide) FLAG_ANONYMOUS_PROXY (by decide)
  have f1 := hflag 1 (by decide) FLAG_SATELLITE_PROVIDER (by decide)
  have f2 := hflag 2 (by decide) FLAG_ANYCAST (by decide)
  have f3 := hflag 3 (by decide) FLAG_DROP (by decide)
  have hval : ∀ key : Bytes, (entryData (netItems n)).2.lookup key =
      (if True ∧ keyOf strNet = key then some (.text (netText n)) else none).or
      ((if countryCode n ≠ [] ∧ keyOf strCountry = key then some (.text (countryCode n)) else none).or
      ((if n.asn ≠ 0 ∧ keyOf strAutNum = key then some (.text (decStr n.asn.toNat)) else none).or
      ((if hasFlag n FLAG_ANONYMOUS_PROXY ≠ 0 ∧ keyOf strProxy = key then some (.text strYes) else none).or
      ((if hasFlag n FLAG_SATELLITE_PROVIDER ≠ 0 ∧ keyOf strSatellite = key then some (.text strYes) else none).or
      ((if hasFlag n FLAG_ANYCAST ≠ 0 ∧ keyOf strAnycast = key then some (.text strYes) else none).or
      (if hasFlag n FLAG_DROP ≠ 0 ∧ keyOf strDropKey = key then some (BlockValue.text strYes) else none)))))) := by
    intro key
    have h0 : [(strNet, netText n)] = itemIf True strNet (netText n) := rfl
    unfold entryData netItems
    simp only [h0, List.map_append, List.lookup_append, lookup_itemIf]
  have hyes : strYes = ascii "yes" := by decide
  refine ⟨rfl, ⟨netText n, ?_, netText_shows hb⟩, ?_, ?_, ?_, ?_, ?_, ?_⟩
  · unfold valueAt
    rw [hval, if_pos ⟨True.intro, hkeys.1⟩]
    rfl
  · unfold valueAt
    rw [hval, if_neg (by decide), hkeys.2.1]
    rw [if_neg (c := n.asn ≠ 0 ∧ _) (by rintro ⟨-, h⟩; revert h; decide),
      if_neg (c := hasFlag n FLAG_ANONYMOUS_PROXY ≠ 0 ∧ _) (by rintro ⟨-, h⟩; revert h; decide),
      if_neg (c := hasFlag n FLAG_SATELLITE_PROVIDER ≠ 0 ∧ _) (by rintro ⟨-, h⟩; revert h; decide),
      if_neg (c := hasFlag n FLAG_ANYCAST ≠ 0 ∧ _) (by rintro ⟨-, h⟩; revert h; decide),
      if_neg (c := hasFlag n FLAG_DROP ≠ 0 ∧ _) (by rintro ⟨-, h⟩; revert h; decide)]
    rw [show (props n).1 = countryCode n from rfl]
    by_cases h : countryCode n = []
    · simp [h]
    · simp [h]
  · unfold valueAt
    have : (entryData (netItems n)).2.lookup (ascii "aut-num") = if n.asn ≠ 0 then some (.text (decStr n.asn.toNat)) else none := by
      rw [hval, if_neg (by decide), hkeys.2.2.1]
      rw [if_neg (c := countryCode n ≠ [] ∧ _) (by rintro ⟨-, h⟩; revert h; decide),
        if_neg (c := hasFlag n FLAG_ANONYMOUS_PROXY ≠ 0 ∧ _) (by rintro ⟨-, h⟩; revert h; decide),
        if_neg (c := hasFlag n FLAG_SATELLITE_PROVIDER ≠ 0 ∧ _) (by rintro ⟨-, h⟩; revert h; decide),
        if_neg (c := hasFlag n FLAG_ANYCAST ≠ 0 ∧ _) (by rintro ⟨-, h⟩; revert h; decide),
        if_neg (c := hasFlag n FLAG_DROP ≠ 0 ∧ _) (by rintro ⟨-, h⟩; revert h; decide)]
      by_cases h : n.asn = 0
      · simp [h]
      · simp [h]
    rw [this]
    by_cases h : n.asn = 0
    · simp [h]
    · rw [if_neg h, if_pos h]
      exact ⟨_, rfl, asn_numeral _⟩
  · unfold valueAt
    rw [hval, if_neg (by decide), hkeys.2.2.2.1]
    rw [if_neg (c := countryCode n ≠ [] ∧ _) (by rintro ⟨-, h⟩; revert h; decide),
      if_neg (c := n.asn ≠ 0 ∧ _) (by rintro ⟨-, h⟩; revert h; decide),
      if_neg (c := hasFlag n FLAG_SATELLITE_PROVIDER ≠ 0 ∧ _) (by rintro ⟨-, h⟩; revert h; decide),
      if_neg (c := hasFlag n FLAG_ANYCAST ≠ 0 ∧ _) (by rintro ⟨-, h⟩; revert h; decide),
      if_neg (c := hasFlag n FLAG_DROP ≠ 0 ∧ _) (by rintro ⟨-, h⟩; revert h; decide)]
    by_cases h : n.flags.getLsbD 0 = true
    · rw [if_pos ⟨f0.mpr h, rfl⟩, if_pos h, hyes]; rfl
    · rw [if_neg (fun hc => h (f0.mp hc.1)), if_neg h]; rfl
  · unfold valueAt
    rw [hval, if_neg (by decide), hkeys.2.2.2.2.1]
    rw [if_neg (c := countryCode n ≠ [] ∧ _) (by rintro ⟨-, h⟩; revert h; decide),
      if_neg (c := n.asn ≠ 0 ∧ _) (by rintro ⟨-, h⟩; revert h; decide),
      if_neg (c := hasFlag n FLAG_ANONYMOUS_PROXY ≠ 0 ∧ _) (by rintro ⟨-, h⟩; revert h; decide),
      if_neg (c := hasFlag n FLAG_ANYCAST ≠ 0 ∧ _) (by rintro ⟨-, h⟩; revert h; decide),
      if_neg (c := hasFlag n FLAG_DROP ≠ 0 ∧ _) (by rintro ⟨-, h⟩; revert h; decide)]
    by_cases h : n.flags.getLsbD 1 = true
    · rw [if_pos ⟨f1.mpr h, rfl⟩, if_pos h, hyes]; rfl
    · rw [if_neg (fun hc => h (f1.mp hc.1)), if_neg h]; rfl
  · unfold valueAt
    rw [hval, if_neg (by decide), hkeys.2.2.2.2.2.1]
    rw [if_neg (c := countryCode n ≠ [] ∧ _) (by rintro ⟨-, h⟩; revert h; decide),
      if_neg (c := n.asn ≠ 0 ∧ _) (by rintro ⟨-, h⟩; revert h; decide),
      if_neg (c := hasFlag n FLAG_ANONYMOUS_PROXY ≠ 0 ∧ _) (by rintro ⟨-, h⟩; revert h; decide),
      if_neg (c := hasFlag n FLAG_SATELLITE_PROVIDER ≠ 0 ∧ _) (by rintro ⟨-, h⟩; revert h; decide),
      if_neg (c := hasFlag n FLAG_DROP ≠ 0 ∧ _) (by rintro ⟨-, h⟩; revert h; decide)]
    by_cases h : n.flags.getLsbD 2 = true
    · rw [if_pos ⟨f2.mpr h, rfl⟩, if_pos h, hyes]; rfl
    · rw [if_neg (fun hc => h (f2.mp hc.1)), if_neg h]; rfl
  · unfold valueAt
    rw [hval, if_neg (by decide), hkeys.2.2.2.2.2.2]
    rw [if_neg (c := countryCode n ≠ [] ∧ _) (by rintro ⟨-, h⟩; revert h; decide),
      if_neg (c := n.asn ≠ 0 ∧ _) (by rintro ⟨-, h⟩; revert h; decide),
      if_neg (c := hasFlag n FLAG_ANONYMOUS_PROXY ≠ 0 ∧ _) (by rintro ⟨-, h⟩; revert h; decide),
      if_neg (c := hasFlag n FLAG_SATELLITE_PROVIDER ≠ 0 ∧ _) (by rintro ⟨-, h⟩; revert h; decide),
      if_neg (c := hasFlag n FLAG_ANYCAST ≠ 0 ∧ _) (by rintro ⟨-, h⟩; revert h; decide)]
    by_cases h : n.flags.getLsbD 3 = true
    · rw [if_pos ⟨f3.mpr h, rfl⟩, if_pos h, hyes]; rfl
    · rw [if_neg (fun hc => h (f3.mp hc.1)), if_neg h]; rfl

/-- Reading a dump of ASes and networks. -/
theorem read_dump {generated : CStr} {vendor license description : Option CStr} (hg : 10 ∉ generated)
    (hv : ∀ v, vendor = some v → 10 ∉ v) (hl : ∀ v, license = some v → 10 ∉ v) {ases : List (Nat × CStr)} {nets : List Network}
    (ha : ∀ a ∈ ases, a.1 < 10 ^ 10 ∧ TidyName a.2) (hn : ∀ n ∈ nets, Block n ∧ CountryOk n) :
    readFile (dumpHead generated vendor license description ++ (ases.flatMap fun a => dumpAs a.1 a.2) ++ nets.flatMap dumpNetwork) =
      .ret ((ases.map fun a => entryData (asItems a.1 a.2)) ++ nets.map fun n => entryData (netItems n)) := by
  have hes : (ases.flatMap fun a => dumpAs a.1 a.2) ++ nets.flatMap dumpNetwork =
      ((ases.map fun a => asItems a.1 a.2) ++ nets.map netItems).flatMap entryText := by
    rw [List.flatMap_append, List.flatMap_map, List.flatMap_map]
    congr 1
    · exact congrArg (fun g => ases.flatMap g) (funext fun a => dumpAs_entry a.1 a.2)
    · exact congrArg (fun g => nets.flatMap g) (funext fun n => dumpNetwork_entry n)
  have hok : ∀ items ∈ (ases.map fun a => asItems a.1 a.2) ++ nets.map netItems, items ≠ [] ∧ (∀ x ∈ items, KeyOk x.1 ∧ TidyName x.2) ∧
      (items.map fun x => keyOf x.1).Nodup ∧ ∀ x ∈ items, keyOf x.1 ≠ [103, 101, 111, 102, 101, 101, 100] := by
    intro items hi
    rcases List.mem_append.mp hi with hi | hi
    · obtain ⟨a, h, rfl⟩ := List.mem_map.mp hi
      exact asItems_ok (ha a h).1 (ha a h).2
    · obtain ⟨n, h, rfl⟩ := List.mem_map.mp hi
      exact netItems_ok (hn n h).1 (hn n h).2
  unfold readFile
  rw [List.append_assoc, hes, dumpHead_lines, iter_comments _ (headLines_ok hg hv hl),
    iter_entries _ (fun items hi => ⟨(hok items hi).1, (hok items hi).2.1⟩)]
  simp only [List.isEmpty_nil, if_true, List.nil_append]
  rw [read_entries _ hok, List.map_append, List.map_map, List.map_map]
  rfl

/-! ## Numbers and networks as text -/

theorem mapM_decVal : ∀ (s : Bytes) (ds : List Nat), s.mapM decVal = some ds ↔ s.map decVal = ds.map some
  | [], ds => by
    cases ds with
    | nil => simp
    | cons => simp
  | c :: s, ds => by
    rw [List.mapM_cons, List.map_cons]
    cases hc : decVal c with
    | none =>
      cases ds with
      | nil => simp
      | cons => simp
    | some x =>
      cases ds with
      | nil => cases s.mapM decVal <;> simp
      | cons d ds =>
        simp only [Option.bind_eq_bind, Option.bind_some, List.map_cons, List.cons.injEq]
        rw [← mapM_decVal s ds]
        cases s.mapM decVal with
        | none => simp
        | some y => simp

theorem digitsOf_iff {s : Bytes} {k : Nat} : digitsOf s = some k ↔ Digits k s := by
  unfold digitsOf Digits
  cases s with
  | nil =>
    constructor
    · intro h; cases h
    · rintro ⟨ds, h, -, hne, -⟩
      cases ds with
      | nil => exact absurd rfl hne
      | cons => cases h
  | cons c s =>
    simp only [List.isEmpty_cons, Bool.false_eq_true, if_false, Option.map_eq_some_iff]
    constructor
    · rintro ⟨ds, h, hk⟩
      have h' := (mapM_decVal _ _).mp h
      obtain ⟨h1, h2⟩ := digits_dec.mpr h'
      refine ⟨ds, h1, h2, ?_, hk⟩
      rintro rfl
      cases h'
    · rintro ⟨ds, h1, h2, -, hk⟩
      exact ⟨ds, (mapM_decVal _ _).mpr (digits_dec.mp ⟨h1, h2⟩), hk⟩

theorem toOption_iff {α : Type} {r : Res α} {x : α} : r.toOption = some x ↔ r = .ok x := by
  cases r with
  | error e => simp [Except.toOption]
  | ok y => simp [Except.toOption]

theorem ipNetwork_iff {s : Bytes} {n : Network} : ipNetwork s = some n ↔ NamesNet s n := by
  have hlarge : ∀ {t : CStr} {a : Addr} {f : Family}, parseText t = some (a, f) → LargestPrefix t (familyBitLength f) := fun h =>
    (parseText_largest h _).mpr rfl
  have hden : ∀ {t : CStr} {a : Addr}, Denotes t a → 47 ∉ t := fun h => text_no_slash h
  constructor
  · intro h
    unfold ipNetwork at h
    cases hp : parseText (s.takeWhile (· ≠ 47)) with
    | none => rw [hp] at h; cases h
    | some r =>
      obtain ⟨a, f⟩ := r
      rw [hp] at h
      simp only at h
      have hd : Denotes (s.takeWhile (· ≠ 47)) a := parseText_iff.mp ⟨f, hp⟩
      by_cases hc : s.contains 47 = true
      · rw [if_pos hc] at h
        cases hv : digitsOf ((s.dropWhile (· ≠ 47)).drop 1) with
        | none => rw [hv] at h; cases h
        | some p =>
          rw [hv] at h
          simp only at h
          by_cases hle : p ≤ familyBitLength f
          · rw [if_pos hle] at h
            refine .inl ⟨_, _, a, p, _, ?_, hd, hlarge hp, digitsOf_iff.mp hv, hle, toOption_iff.mp h⟩
            have hm : (47 : Byte) ∈ s := by simpa using hc
            have hdrop : s.dropWhile (· ≠ 47) = 47 :: (s.dropWhile (· ≠ 47)).drop 1 := by
              cases hx : s.dropWhile (· ≠ 47) with
              | nil =>
                have : ∀ a ∈ s, a ≠ 47 := by simpa [List.dropWhile_eq_nil_iff] using hx
                exact absurd rfl (this 47 hm)
              | cons a b =>
                have := List.head?_dropWhile_not (fun a => decide (a ≠ (47 : Byte))) s
                rw [hx] at this
                have ha : a = 47 := by simpa using this
                rw [ha]
                rfl
            rw [← hdrop, List.takeWhile_append_dropWhile]
          · rw [if_neg hle] at h; cases h
      · rw [if_neg hc] at h
        have hno : 47 ∉ s := by simpa using hc
        rw [(no_byte hno).1] at hp hd
        exact .inr ⟨a, _, hd, hlarge hp, toOption_iff.mp h⟩
  · rintro (⟨t, d, a, p, m, rfl, h1, h2, h3, h4, h5⟩ | ⟨a, m, h1, h2, h3⟩)
    · obtain ⟨f, hp⟩ := parseText_iff.mpr h1
      have hm := (parseText_largest hp m).mp h2
      subst hm
      unfold ipNetwork
      rw [(split_byte (hden h1)).1, hp]
      simp only
      rw [if_pos (by simp), (split_byte (hden h1)).2, List.drop_succ_cons, List.drop_zero, digitsOf_iff.mpr h3]
      simp only
      rw [if_pos h4]
      exact toOption_iff.mpr h5
    · obtain ⟨f, hp⟩ := parseText_iff.mpr h1
      have hm := (parseText_largest hp m).mp h2
      subst hm
      unfold ipNetwork
      rw [(no_byte (hden h1)).1, hp]
      simp only
      rw [if_neg (by simpa using hden h1)]
      exact toOption_iff.mpr h3

end Loc
