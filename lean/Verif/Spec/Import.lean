import Verif.Model.Import
import Verif.Spec.Writer
import Verif.Spec.Network
/-
What the tables of the importer say about an address.
-/
namespace Loc.Spec
open Loc

/-- The entry `x` belongs to a most specific network of the table that contains the address. -/
def BestAt {α : Type} (t : List (Network × α)) (a : Addr) (x : α) : Prop :=
  ∃ n, (n, x) ∈ t ∧ Contains n a ∧ ∀ y ∈ t, Contains y.1 a → y.1.pfx ≤ n.pfx

/-- What a table says about an address: a most specific entry, or nothing if no network contains the address. -/
def SaysAt {α : Type} (t : List (Network × α)) (a : Addr) (x : Option α) : Prop :=
  (∃ y, BestAt t a y ∧ x = some y) ∨ ((∀ y ∈ t, ¬ Contains y.1 a) ∧ x = none)

/-- What a table says about an AS number. -/
def SaysOf {α : Type} (t : List (Nat × α)) (asn : Option Nat) (x : Option α) : Prop :=
  (∃ k y, asn = some k ∧ (k, y) ∈ t ∧ x = some y) ∨ ((∀ k, asn = some k → ∀ y ∈ t, y.1 ≠ k) ∧ x = none)

/-- The first value that is given. -/
def firstOf {α : Type} : List (Option α) → Option α
  | [] => none
  | some x :: _ => some x
  | none :: rest => firstOf rest

/-- AS number and marks that follow from the tables for an address: overrides of the AS win over overrides of networks, then
    come feeds about the AS, feeds about networks, and for the country geofeeds and at last the data of the registries. -/
def TablesSay (t : Tables) (a : Addr) (asn : Option Nat) (m : Marks) : Prop :=
  SaysAt t.announcements a asn ∧
  ∃ (registry geofeed : Option (Option CStr)) (feed autnumFeed override : Option Marks) (autnumOverride : Option (Option CStr × Marks)),
    SaysAt t.networks a registry ∧ SaysAt t.geofeeds a geofeed ∧ SaysAt t.feeds a feed ∧ SaysOf t.autnumFeeds asn autnumFeed ∧
    SaysAt t.overrides a override ∧ SaysOf t.autnumOverrides asn autnumOverride ∧
    let layers := [autnumOverride.map (·.2), override, autnumFeed, feed]
    m.country = firstOf (layers.map (fun l => l.bind (·.country)) ++ [(firstOf [geofeed, registry]).join]) ∧
    m.proxy = firstOf (layers.map fun l => l.bind (·.proxy)) ∧
    m.satellite = firstOf (layers.map fun l => l.bind (·.satellite)) ∧
    m.anycast = firstOf (layers.map fun l => l.bind (·.anycast)) ∧
    m.drop = firstOf (layers.map fun l => l.bind (·.drop))

/-- The network is in one of the tables. -/
def HasNetwork (t : Tables) (n : Network) : Prop :=
  n ∈ t.announcements.map (·.1) ∨ n ∈ t.networks.map (·.1) ∨ n ∈ t.feeds.map (·.1) ∨ n ∈ t.overrides.map (·.1) ∨
    n ∈ t.geofeedNetworks

/-- `rows` are the networks of all tables, each once. -/
def AllNetworks (t : Tables) (rows : List Network) : Prop :=
  rows.Pairwise (fun m n => ¬ SameBlock m n) ∧ ∀ n, n ∈ rows ↔ HasNetwork t n

/-- The tables hold networks as the database server does: made of an address and a prefix, without properties; IPv6
    networks do not contain IPv4-mapped addresses.  AS numbers are keys.  Strings contain no NUL.  Countries come in
    alphabetical order, each once. -/
structure TablesOk (t : Tables) : Prop where
  made : ∀ n, HasNetwork t n → ∃ a p, newNetwork a p = .ok n
  separate : ∀ n, HasNetwork t n → n.family = .inet6 → ∀ a, Contains n a → ¬ IsV4 a
  geofeeds : ∀ x ∈ t.geofeeds, x.1 ∈ t.geofeedNetworks
  keys : (t.autnums.map (·.1)).Nodup
  names : ∀ x ∈ t.autnums, (0 : Byte) ∉ x.2
  overrideNames : ∀ x ∈ t.autnumOverrides, ∀ s, x.2.1 = some s → (0 : Byte) ∉ s
  countries : ∀ x ∈ t.countries, (0 : Byte) ∉ x.1 ∧ (0 : Byte) ∉ x.2.1 ∧ (0 : Byte) ∉ x.2.2
  sorted : (t.countries.map (·.1)).Pairwise (fun a b => codeNumber a < codeNumber b)

/-- The name of an AS: that of the override, otherwise that of the registries; ASes without a name are left out. -/
def NameOf (t : Tables) (number : Nat) : Option CStr :=
  match t.autnums.find? (fun x => decide (x.1 = number)) with
  | none => none
  | some (_, name) =>
    let name := match t.autnumOverrides.find? (fun y => decide (y.1 = number)) with
      | some (_, some name, _) => name
      | _ => name
    if name = [] then none else some name

/-- Country code, AS number and flags of a network are these. -/
def Carries (n : Network) (asn : Option Nat) (m : Marks) : Prop :=
  (props n).1 = m.country.getD [] ∧ n.asn.toNat = asn.getD 0 ∧
  n.flags = (if m.proxy = some true then 1 else 0) ||| (if m.satellite = some true then 2 else 0) |||
    (if m.anycast = some true then 4 else 0) ||| (if m.drop = some true then 8 else 0)

/-- No country, the empty string or a valid code. -/
def CodeOk (country : Option CStr) : Prop := ∀ s, country = some s → s = [] ∨ ValidCC s

/-- All values of the tables are usable: valid country codes, continent codes of two characters, AS numbers below a limit. -/
structure Usable (limit : Nat) (t : Tables) : Prop where
  announcements : ∀ x ∈ t.announcements, x.2 < limit
  autnums : ∀ x ∈ t.autnums, x.1 < limit
  networks : ∀ x ∈ t.networks, CodeOk x.2
  geofeeds : ∀ x ∈ t.geofeeds, CodeOk x.2
  feeds : ∀ x ∈ t.feeds, CodeOk x.2.country
  autnumFeeds : ∀ x ∈ t.autnumFeeds, CodeOk x.2.country
  overrides : ∀ x ∈ t.overrides, CodeOk x.2.country
  autnumOverrides : ∀ x ∈ t.autnumOverrides, CodeOk x.2.2.country
  countries : ∀ x ∈ t.countries, ValidCC x.1 ∧ x.2.1.length = 2

/-- After an import of the tables, the database `f` was written (see `Written`). -/
def Imported {K : Type} (ctz0 : Nat) (key1 key2 : Option K) (t : Tables) (c : Nat → Network → Nat) (rows : List Network)
    (vendor description license : CStr) (e : WEnv K) (w' : Writer K) (f : Bytes) : Prop :=
  TablesOk t ∧ AllNetworks t rows ∧ (0 : Byte) ∉ vendor ∧ (0 : Byte) ∉ description ∧ (0 : Byte) ∉ license ∧
  ∃ w0 w old version, writerNew key1 key2 = .ok w0 ∧ importWrite t c rows vendor description license w0 = .ok (.ret w) ∧
    e.ctz0 = ctz0 ∧ writerWrite e w old version = .ok (w', some f) ∧ f.length < 2 ^ 32

end Loc.Spec
