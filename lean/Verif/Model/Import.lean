import Verif.Model.Bindings
import Verif.Spec.Writer
/-
Model of `location-importer write`: `handle_write` in `src/scripts/location-importer.in`.

The SQL statements are modelled by what they mean.  Where SQL leaves the result open (which of several rows of the same
rank comes first), a parameter decides.  A network of type `inet` is represented by the network that the writer makes of
its text; values of type `inet` with bits set behind the prefix do not occur.
-/
namespace Loc

/-- The columns country, is_anonymous_proxy, is_satellite_provider, is_anycast, is_drop; `none` is `NULL`. -/
structure Marks where
  country : Option CStr
  proxy : Option Bool
  satellite : Option Bool
  anycast : Option Bool
  drop : Option Bool
  deriving DecidableEq, Repr

/-- The tables, location-importer.in:194-299.  `geofeeds` is the result of the first subquery of lines 524-542,
    `geofeedNetworks` the networks of the table `geofeed_networks`; `autnums` and `countries` are in the order of the
    queries (lines 360-361, 820-821). -/
structure Tables where
  autnums : List (Nat × CStr)
  announcements : List (Network × Nat)
  networks : List (Network × Option CStr)
  geofeedNetworks : List Network
  geofeeds : List (Network × Option CStr)
  feeds : List (Network × Marks)
  autnumFeeds : List (Nat × Marks)
  overrides : List (Network × Marks)
  autnumOverrides : List (Nat × Option CStr × Marks)
  /-- code, continent, name -/
  countries : List (CStr × CStr × CStr)

/-- A row of the temporary table `n`, location-importer.in:377-390 -/
structure ImportRow where
  network : Network
  autnum : Option Nat
  marks : Marks
  deriving DecidableEq, Repr

/-- `m >>= n`: the same family, and `m` contains or equals `n` -/
def sqlContains (m n : Network) : Bool := decide (m.family = n.family) && isSubnet m n

/-- One row out of some of the same rank. -/
def sqlPick {α : Type} (c : Nat) (l : List α) : Option α := l[c % l.length]?

/-- `JOIN t ON t.network >>= n.network`, of which the row with number 1 in the order of
    `masklen(t.network) DESC` is taken (location-importer.in:448-484 and the like). -/
def sqlBest {α : Type} (c : Nat) (t : List (Network × α)) (n : Network) : Option α :=
  let l := t.filter fun x => sqlContains x.1 n
  (sqlPick c (l.filter fun x => l.all fun y => decide (y.1.pfx ≤ x.1.pfx))).map (·.2)

/-- `JOIN t ON t.number = n.autnum` in an `UPDATE` (location-importer.in:634-674): one of the rows. -/
def sqlOfAs {α : Type} (c : Nat) (t : List (Nat × α)) (asn : Option Nat) : Option α :=
  match asn with
  | none => none
  | some k => (sqlPick c (t.filter fun x => decide (x.1 = k))).map (·.2)

/-- The assignments of location-importer.in:609-623; without a joined row, nothing changes. -/
def coalesceMarks (new : Option Marks) (old : Marks) : Marks :=
  match new with
  | none => old
  | some m => ⟨m.country.or old.country, m.proxy.or old.proxy, m.satellite.or old.satellite, m.anycast.or old.anycast, m.drop.or old.drop⟩

/-- `country = networks.country` (location-importer.in:510-519, 565-574); without a joined row, nothing changes. -/
def replaceCountry (new : Option (Option CStr)) (old : Marks) : Marks :=
  match new with
  | none => old
  | some country => { old with country := country }

/-- The row of a network after all updates, location-importer.in:447-771 -/
def importRowOf (t : Tables) (c : Nat → Network → Nat) (n : Network) : ImportRow :=
  let autnum := sqlBest (c 0 n) t.announcements n
  let m : Marks := ⟨none, none, none, none, none⟩
  let m := replaceCountry (sqlBest (c 1 n) t.networks n) m
  let m := replaceCountry (sqlBest (c 2 n) t.geofeeds n) m
  let m := coalesceMarks (sqlBest (c 3 n) t.feeds n) m
  let m := coalesceMarks (sqlOfAs (c 4 n) t.autnumFeeds autnum) m
  let m := coalesceMarks (sqlBest (c 5 n) t.overrides n) m
  let m := coalesceMarks ((sqlOfAs (c 6 n) t.autnumOverrides autnum).map (·.2)) m
  ⟨n, autnum, m⟩

/-- location-importer.in:790-792 with `Network_set_country_code`, python/network.c:104-117 (texts of the database server
    contain no NUL). -/
def importCountryCode (n : Network) (country : Option CStr) : Res (Call Network) :=
  match country with
  | none => .ok (.ret n)
  | some cc =>
    if cc.isEmpty then .ok (.ret n)
    else match setCountryCode n (some cc) with
      | .error (.err _) => .ok (.exc .value)
      | .error e => .error e
      | .ok n => .ok (.ret n)

/-- location-importer.in:794-796 -/
def importAsn (n : Network) (autnum : Option Nat) : Call Network :=
  match autnum with
  | none => .ret n
  | some k => if k = 0 then .ret n else pySetAsn n k

/-- One of location-importer.in:798-809 -/
def importFlag (n : Network) (v : Option Bool) (f : BitVec 32) : Network :=
  if v = some true then setFlag n f else n

/-- The setters that are called on a network, location-importer.in:790-809 -/
def importNetwork (r : ImportRow) : Res (Call Network) :=
  match importCountryCode r.network r.marks.country with
  | .error e => .error e
  | .ok (.exc x) => .ok (.exc x)
  | .ok (.ret n) =>
    match importAsn n r.autnum with
    | .exc x => .ok (.exc x)
    | .ret n => .ok (.ret (importFlag (importFlag (importFlag (importFlag n r.marks.proxy FLAG_ANONYMOUS_PROXY)
        r.marks.satellite FLAG_SATELLITE_PROVIDER) r.marks.anycast FLAG_ANYCAST) r.marks.drop FLAG_DROP))

/-- location-importer.in:787-809 (`Writer_add_network` as in `pyAddNetwork`) -/
def importNetworks {K : Type} (w : Writer K) : List ImportRow → Res (Call (Writer K))
  | [] => .ok (.ret w)
  | r :: rest =>
    match addNetwork w r.network with
    | .error e => .error e
    | .ok (k, w) =>
      if k ≠ 0 then .ok (.exc .index)
      else match importNetwork r with
        | .error e => .error e
        | .ok (.exc x) => .ok (.exc x)
        | .ok (.ret n) => importNetworks { w with networks := w.networks.replace r.network n } rest

/-- The query of location-importer.in:349-362 (the number is a key of both tables) -/
def importAsRows (t : Tables) : List (Nat × CStr) :=
  t.autnums.map fun x => (x.1, match t.autnumOverrides.find? (fun y => decide (y.1 = x.1)) with
    | some (_, some name, _) => name
    | _ => x.2)

/-- location-importer.in:364-370 -/
def importAses {K : Type} (w : Writer K) : List (Nat × CStr) → Call (Writer K)
  | [] => .ret w
  | (number, name) :: rest =>
    if name.isEmpty then importAses w rest
    else match argInt number with
      | .exc x => .exc x
      | .ret k => importAses (addAs w k (some name)) rest

/-- location-importer.in:825-828: `Writer_add_country` (python/writer.c:166-190), `Country_set_continent_code`
    (python/country.c), `Country_set_name`.  The object is changed after it was added (see `addCountry`). -/
def importCountries {K : Type} (w : Writer K) : List (CStr × CStr × CStr) → Res (Call (Writer K))
  | [] => .ok (.ret w)
  | (code, continent, name) :: rest =>
    match countryNew (some code) with
    | .error (.err _) => .ok (.exc .system)
    | .error e => .error e
    | .ok c =>
      match countrySetContinent c (some continent) with
      | .error (.err _) => .ok (.exc .value)
      | .error e => .error e
      | .ok _ =>
        match addCountry w (some code) (some continent) (some name) with
        | .error e => .error e
        | .ok w => importCountries w rest

/-- One of location-importer.in:333-340 with `Writer_set_vendor`, `Writer_set_description`, `Writer_set_license`
    (python/writer.c) -/
def importMeta {K : Type} (f : Writer K → Option CStr → Res (Writer K)) (w : Writer K) (s : CStr) : Res (Call (Writer K)) :=
  if s.isEmpty then .ok (.ret w)
  else match f w (some s) with
    | .error (.err _) => .ok (.exc .value)
    | .error e => .error e
    | .ok w => .ok (.ret w)

/-- `handle_write` without writing the files, location-importer.in:330-828.  `rows` are the networks of the temporary
    table in the order of the last query.  The column `autnum` of the temporary table is an `integer` (line 382), so that
    the database refuses larger numbers. -/
def importWrite {K : Type} (t : Tables) (c : Nat → Network → Nat) (rows : List Network) (vendor description license : CStr)
    (w : Writer K) : Res (Call (Writer K)) :=
  match importMeta setVendor w vendor with
  | .error e => .error e
  | .ok (.exc x) => .ok (.exc x)
  | .ok (.ret w) =>
  match importMeta setDescription w description with
  | .error e => .error e
  | .ok (.exc x) => .ok (.exc x)
  | .ok (.ret w) =>
  match importMeta setLicense w license with
  | .error e => .error e
  | .ok (.exc x) => .ok (.exc x)
  | .ok (.ret w) =>
  match importAses w (importAsRows t) with
  | .exc x => .ok (.exc x)
  | .ret w =>
    let rows := rows.map (importRowOf t c)
    if rows.any fun r => r.autnum.any fun k => decide (2 ^ 31 ≤ k) then .ok (.exc .database)
    else match importNetworks w rows with
      | .error e => .error e
      | .ok (.exc x) => .ok (.exc x)
      | .ok (.ret w) => importCountries w t.countries

end Loc
