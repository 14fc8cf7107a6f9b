import Verif.Model.Flatten
import Verif.Model.Update
/-
Model of `location export`: `src/python/location/export.py` (class `Exporter`) with `Database.search_networks` of
`src/python/database.c`.
-/
namespace Loc

/-- The keys of the dictionary `writers`, export.py:249-257: a country code (a string) or an AS number. -/
inductive Key
  | country (code : CStr)
  | asn (number : Nat)
  deriving DecidableEq, Repr

/-- The dictionary `writers` in the order of its keys; of an output file only the networks that are written to it
    are kept, not the format. -/
abbrev Outputs := List (Key × List Network)

/-- `FLAGS`, export.py:34-39 -/
def exportFlags : List (BitVec 32 × CStr) :=
  [(FLAG_ANONYMOUS_PROXY, [65, 49]), (FLAG_SATELLITE_PROVIDER, [65, 50]), (FLAG_ANYCAST, [65, 51]), (FLAG_DROP, [88, 68])]

/-- `writers[k] = self.writer(…)`, export.py:253 and 257: a new output, which replaces one with the same key. -/
def outSet : Outputs → Key → Outputs
  | [], k => [(k, [])]
  | (k', l) :: w, k => if k' = k then (k', []) :: w else (k', l) :: outSet w k

/-- `writers[k].write(network)`, export.py:270-291; a `KeyError` is ignored. -/
def outWrite (n : Network) : Outputs → Key → Outputs
  | [], _ => []
  | (k', l) :: w, k => if k' = k then (k', l ++ [n]) :: w else (k', l) :: outWrite n w k

/-- export.py:249-257 -/
def exportWriters (countries : List CStr) (asns : List Nat) : Outputs :=
  asns.foldl (fun w a => outSet w (.asn a)) (countries.foldl (fun w c => outSet w (.country c)) [])

/-- The flags of one network, export.py:282-291 -/
def exportFlag (n : Network) (w : Outputs) (e : BitVec 32 × CStr) : Outputs :=
  if hasFlag n e.1 ≠ 0 then outWrite n w (.country e.2) else w

/-- One network, export.py:269-291.  `network.asn` is `None` for the number 0 (python/network.c:119-126), which is no
    key. -/
def exportNetwork (w : Outputs) (n : Network) : Outputs :=
  let w := outWrite n w (.country (countryCode n))
  let w := if n.asn = 0 then w else outWrite n w (.asn n.asn.toNat)
  exportFlags.foldl (exportFlag n) w

/-- `country_codes` of `search_networks`, python/database.c:321-375 -/
def searchCountries : List CStr → List Country → Py (List Country)
  | [], l => .ok l
  | c :: cs, l =>
    match countryNew (some c) with
    | .error _ => .raised
    | .ok c => searchCountries cs (countryListAppend l c)

/-- `asns` of `search_networks`, python/database.c:378-429.  The number is taken to fit into a C `long`; it is
    reduced to 32 bits. -/
def searchAsns (asns : List Nat) : List AS :=
  asns.foldl (fun l a => asListAppend l ⟨BitVec.ofNat 32 a, none⟩) []

/-- export.py:259-262 -/
def plainCountries (countries : List CStr) : List CStr :=
  countries.filter fun c => !(exportFlags.map (·.2)).contains c

/-- One round of `Exporter.export`, export.py:245-295, for one family.  An exception (`raised`) leaves the files
    unfinished.  `fuel` bounds the number of networks. -/
def exportFamily (db : Db) (fuel family : Nat) (countries : List CStr) (asns : List Nat) : Res (Py Outputs) :=
  match searchCountries (plainCountries countries) [] with
  | .raised => .ok .raised
  | .ok cl =>
    match drain (nextNetworkFlat db fuel) fuel (enumNew ⟨family, some cl, some (searchAsns asns), 0⟩) with
    | .error x => .error x
    | .ok (_, false, _) => .ok .raised
    | .ok (nets, true, _) => .ok (.ok (nets.foldl exportNetwork (exportWriters countries asns)))

end Loc
