import Verif.Model.Formats
import Verif.Model.Bogon
import Verif.Model.Cli
/-
Model of the commands of `location` that list objects of the database: `search-as`, `list-countries`,
`list-networks-by-as`, `list-networks-by-cc`, `list-networks-by-flags`, `list-bogons`, and of the arguments of `export`:
`src/scripts/location.in`, with the enumerators of `src/python/database.c`.

Not modelled: the parsing of options by Python's `argparse` (an unknown family or format never gets here), messages on
standard error.
-/
namespace Loc

/-- The exit code for an exception, `run`, location.in:231-243 -/
def exitCode : Exc → Nat
  | .value => 2
  | _ => 1

/-- `"%s" % n` for an integer: a sign and digits, as many as needed -/
def intStr (n : Int) : CStr :=
  if n < 0 then 45 :: numLoop 10 (n.natAbs + 1) n.natAbs else numLoop 10 (n.natAbs + 1) n.natAbs

/-- The option `--family`; `run`, location.in:221-228 -/
def familyArg : Option Family → Nat
  | some .inet6 => 10
  | some .inet => 2
  | none => 0

/-- The argument `asns=[asn]` of `Database_search_networks`, python/database.c:378-429.  `PyLong_AsLong` returns -1 for
    numbers that need more than 64 bits, and its `OverflowError` stays set; the interpreter raises a `SystemError` when the
    method returns an object nevertheless.  Other numbers are reduced to 32 bits. -/
def argAsns (asn : Int) : Call (List AS) :=
  if asn < -2 ^ 63 ∨ 2 ^ 63 ≤ asn then .exc .system else .ret (asListAppend [] ⟨BitVec.ofInt 32 asn, none⟩)

/-- The argument `country_codes=[code]` of `Database_search_networks`, python/database.c:321-375: `loc_country_new` reports
    an invalid code as 1, not as `-EINVAL` (country.c:52-55), so that the exception is a `SystemError`. -/
def argCountries (code : CStr) : Call (List Country) :=
  match countryNew (some code) with
  | .error _ => .exc .system
  | .ok c => .ret (countryListAppend [] c)

/-- The exception that the constructor of a writer raises (`writerStart`): a `ValueError` of `IpsetOutputWriter`
    (export.py:151-152), an `AttributeError` of `XTGeoIPOutputWriter`. -/
def writerExit : Format → Nat
  | .ipset => exitCode .value
  | _ => exitCode .type

/-- The common part of the commands that list networks: a writer is started on standard output, then the arguments of the
    search are converted, then every network is written, then the writer finishes.  The result is what was written to
    standard output and the exit code.  `DatabaseEnumerator_next`, python/database.c:604-615, turns a failure of the
    enumeration into a `ValueError`. -/
def listNetworks {σ : Type} (fmt : Format) (expo : Nat → Nat) (family : Nat) (name : CStr) (next : σ → Res (Next Network × σ)) (fuel : Nat)
    (start : Call σ) (out : OutFile) : Res (OutFile × Nat) :=
  match writerStart fmt expo (makeTag name family) family out with
  | .raised => .ok (out, writerExit fmt)
  | .ok f =>
    match start with
    | .exc x => .ok (f, exitCode x)
    | .ret s =>
      match drain next fuel s with
      | .error x => .error x
      | .ok (nets, done, _) =>
        let f := nets.foldl (fun f n => filePut f (networkLine fmt (makeTag name family) (netText n))) f
        if done then .ok (writerFinish fmt expo (makeTag name family) family nets.length f, 0)
        else .ok (f, exitCode .value)

/-- `handle_list_networks_by_as`, location.in:512-523; the parser accepts exactly one number. -/
def listByAs (db : Db) (fmt : Format) (expo : Nat → Nat) (family : Option Family) (fuel : Nat) (asn : Int) (out : OutFile) : Res (OutFile × Nat) :=
  listNetworks fmt expo (familyArg family) ([65, 83] ++ intStr asn) (nextNetwork db) fuel
    (match argAsns asn with
      | .exc x => .exc x
      | .ret l => .ret (enumNew ⟨familyArg family, none, some l, 0⟩)) out

/-- `handle_list_networks_by_cc`, location.in:525-536; the parser accepts exactly one code. -/
def listByCountry (db : Db) (fmt : Format) (expo : Nat → Nat) (family : Option Family) (fuel : Nat) (code : CStr) (out : OutFile) : Res (OutFile × Nat) :=
  listNetworks fmt expo (familyArg family) code (nextNetwork db) fuel
    (match argCountries code with
      | .exc x => .exc x
      | .ret l => .ret (enumNew ⟨familyArg family, some l, none, 0⟩)) out

/-- The options of `list-networks-by-flags` -/
structure FlagArgs where
  anonymousProxy : Bool
  satelliteProvider : Bool
  anycast : Bool
  drop : Bool
  deriving DecidableEq, Repr

/-- location.in:539-551 -/
def flagArgs (a : FlagArgs) : BitVec 32 :=
  let flags := (0 : BitVec 32)
  let flags := if a.anonymousProxy then flags ||| FLAG_ANONYMOUS_PROXY else flags
  let flags := if a.satelliteProvider then flags ||| FLAG_SATELLITE_PROVIDER else flags
  let flags := if a.anycast then flags ||| FLAG_ANYCAST else flags
  if a.drop then flags ||| FLAG_DROP else flags

/-- "custom" -/
def strCustom : CStr := [99, 117, 115, 116, 111, 109]
/-- "bogons" -/
def strBogons : CStr := [98, 111, 103, 111, 110, 115]

/-- `handle_list_networks_by_flags`, location.in:538-562 -/
def listByFlags (db : Db) (fmt : Format) (expo : Nat → Nat) (family : Option Family) (fuel : Nat) (a : FlagArgs) (out : OutFile) : Res (OutFile × Nat) :=
  if flagArgs a = 0 then .ok (out, exitCode .value)
  else listNetworks fmt expo (familyArg family) strCustom (nextNetwork db) fuel (.ret (enumNew ⟨familyArg family, none, none, flagArgs a⟩)) out

/-- `handle_list_bogons`, location.in:564-571, with `Database_list_bogons`, python/database.c:459-468 -/
def listBogons (db : Db) (fmt : Format) (expo : Nat → Nat) (family : Option Family) (fuel : Nat) (out : OutFile) : Res (OutFile × Nat) :=
  listNetworks fmt expo (familyArg family) strBogons (nextBogon db fuel) fuel (.ret (enumNew ⟨familyArg family, none, none, 0⟩)) out

/-- `handle_search_as`, location.in:418-422, with `Database_search_as`, python/database.c:268-291: the lines that are
    printed, and the exit code; the parser accepts exactly one text, which contains no NUL. -/
def searchAs (db : Db) (fuel : Nat) (query : CStr) : Res (List CStr × Nat) :=
  match drain (nextAs db (setString query)) fuel 0 with
  | .error x => .error x
  | .ok (l, done, _) => .ok (l.map asStr, if done then 0 else exitCode .value)

/-- `" ".join(…)`: a `TypeError` if there is a `None` among the texts. -/
def joinWords : List (Option CStr) → Call CStr
  | [] => .ret []
  | none :: _ => .exc .type
  | [some s] => .ret s
  | some s :: rest =>
    match joinWords rest with
    | .exc x => .exc x
    | .ret t => .ret (s ++ 32 :: t)

/-- The line for one country, location.in:497-508 -/
def countryLine (continent name : Bool) (c : Country) : Call CStr :=
  joinWords ([some (countryGetCode c)] ++ (if continent then [countryContinent c] else []) ++ (if name then [c.name] else []))

/-- The loop of `handle_list_countries`, location.in:496-511, over the countries that the enumerator returns -/
def countryLines (continent name : Bool) : List Country → List CStr × Option Exc
  | [] => ([], none)
  | c :: l =>
    match countryLine continent name c with
    | .exc x => ([], some x)
    | .ret s =>
      let (lines, x) := countryLines continent name l
      (s :: lines, x)

/-- `handle_list_countries`, location.in:495-511: the lines that are printed, and the exit code. -/
def listCountries (db : Db) (fuel : Nat) (continent name : Bool) : Res (List CStr × Nat) :=
  match drain (nextCountry db) fuel 0 with
  | .error x => .error x
  | .ok (l, done, _) =>
    match countryLines continent name l with
    | (lines, some x) => .ok (lines, exitCode x)
    | (lines, none) => .ok (lines, if done then 0 else exitCode .value)

/-! ### The arguments of `export` -/

/-- `re.match(r"^AS(\d+)$", object)`, location.in:583-585.  Simplified: only ASCII digits (`\d` also matches others), and no
    line break at the end (which `$` tolerates). -/
def asObject : CStr → Option Nat
  | 65 :: 83 :: d :: ds => ((d :: ds).mapM decVal).map fun l => l.foldl (fun acc v => acc * 10 + v) 0
  | _ => none

/-- The special country codes "A1", "A2", "A3", "XD", location.in:590 and 599 -/
def specialCodes : List CStr := [[65, 49], [65, 50], [65, 51], [88, 68]]

/-- `handle_export`, location.in:582-595: the country codes and the numbers; other arguments are ignored. -/
def exportObjects : List CStr → List CStr × List Nat
  | [] => ([], [])
  | s :: rest =>
    let (countries, asns) := exportObjects rest
    match asObject s with
    | some x => (countries, x :: asns)
    | none => if ccIsValid (some s) || specialCodes.contains s then (s :: countries, asns) else (countries, asns)

/-- The families of an export, location.in:576-580 -/
def exportFamilies : Option Family → List Nat
  | some G => [familyArg (some G)]
  | none => [10, 2]

/-- `handle_export`, location.in:573-605: what `Exporter.export` is called with, countries, ASNs and families. -/
def exportCall (db : Db) (fuel : Nat) (family : Option Family) (objects : List CStr) : Res (Call (List CStr × List Nat × List Nat)) :=
  match exportObjects objects with
  | ([], []) =>
    match drain (nextCountry db) fuel 0 with
    | .error x => .error x
    | .ok (_, false, _) => .ok (.exc .value)
    | .ok (l, true, _) => .ok (.ret (specialCodes ++ l.map countryGetCode, [], exportFamilies family))
  | (countries, asns) => .ok (.ret (countries, asns, exportFamilies family))

end Loc
