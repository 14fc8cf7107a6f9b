import Verif.Model.Database
import Verif.Model.Text
import Verif.Model.NetworkList
/-
Model of the functions of the language bindings that answer questions about a database or fill a writer:
`src/python/{database,network,country,as,writer}.c`, `src/lua/{database,as}.c`, `src/perl/Location.xs`.

Not modelled: reference counts of script objects, the conversion between text and UTF-8 (strings are given as the
bytes the binding sees; invalid UTF-8 does not occur).
-/
namespace Loc

/-! ## Python -/

/-- The classes of exceptions that occur.  `system` is the `SystemError` that the interpreter raises itself when a
    function reports a failure without having set an exception, `database` an error of the database server. -/
inductive Exc
  | value | index | os | overflow | system | database | type
  deriving DecidableEq, Repr

/-- How a call of a method ends: a value or an exception. -/
inductive Call (α : Type)
  | ret (x : α)
  | exc (e : Exc)
  deriving DecidableEq, Repr

/-- `PyArg_ParseTuple(args, "s", …)`: a string with a NUL inside is refused with a `ValueError`. -/
def argStr (s : Bytes) : Call CStr := if s.contains 0 then .exc .value else .ret s

/-- `PyArg_ParseTuple(args, "i", …)` into an `uint32_t`: numbers outside of the range of `int` are refused with an
    `OverflowError`, negative ones are reinterpreted. -/
def argInt (n : Int) : Call (BitVec 32) :=
  if n < -2 ^ 31 ∨ 2 ^ 31 ≤ n then .exc .overflow else .ret (BitVec.ofInt 32 n)

/-- `Database_get_as`, python/database.c:142-166: also a failure is reported by 1 (see `getAs`). -/
def pyGetAs (db : Db) (n : Int) : Res (Call (Option AS)) :=
  match argInt n with
  | .exc x => .ok (.exc x)
  | .ret number =>
    match getAs db number with
    | .error e => .error e
    | .ok r => .ok (.ret r)

/-- `Database_get_country`, python/database.c:168-199.  `errno` is `EINVAL` if the code is invalid (database.c:1014-1017).
    Simplified: with a damaged file, in which an invalid code is stored, the exception is a `ValueError`, too
    (country.c:52-55), not an `OSError`. -/
def pyGetCountry (db : Db) (s : Bytes) : Res (Call (Option Country)) :=
  match argStr s with
  | .exc x => .ok (.exc x)
  | .ret code =>
    match getCountry db (some code) with
    | .error e => .error e
    | .ok .failed => .ok (.exc (if ccIsValid (some code) then .os else .value))
    | .ok .missing => .ok (.ret none)
    | .ok (.found c) => .ok (.ret (some c))

/-- `loc_database_lookup_from_string`, database.c:960-970: the second case is an error return. -/
def lookupFromString (db : Db) (s : CStr) : Res (Option LookupOut) :=
  match addressParse false (some s) with
  | .error (.err _) => .ok none
  | .error e => .error e
  | .ok (a, _) =>
    match lookup db a with
    | .error e => .error e
    | .ok r => .ok (some r)

/-- `Database_lookup`, python/database.c:201-233.  For `EINVAL` a `ValueError` is set, but the case falls through to the
    default, which replaces it by an `OSError`. -/
def pyLookup (db : Db) (s : Bytes) : Res (Call (Option Network)) :=
  match argStr s with
  | .exc x => .ok (.exc x)
  | .ret s =>
    match lookupFromString db s with
    | .error e => .error e
    | .ok (some (.ok n)) => .ok (.ret n)
    | .ok _ => .ok (.exc .os)

/-- `AS_get_name`, python/as.c:87-91: `PyUnicode_FromString(NULL)` reads through the null pointer. -/
def pyAsName (a : AS) : Res CStr :=
  match a.name with
  | none => .error .oob
  | some s => .ok s

/-- `printf`'s `%d` given an `uint32_t` -/
def fmtD (n : BitVec 32) : CStr :=
  if n.toInt < 0 then 45 :: decStr n.toInt.natAbs else decStr n.toInt.natAbs

/-- `AS_str`, python/as.c:71-79, and `AS_tostring`, lua/as.c:88-101: "AS%d - %s" or "AS%d" -/
def asStr (a : AS) : CStr :=
  match a.name with
  | some name => [65, 83] ++ fmtD a.number ++ [32, 45, 32] ++ name
  | none => [65, 83] ++ fmtD a.number

/-- `Network_init`, python/network.c:70-84 -/
def pyNetwork (s : Bytes) : Res (Call Network) :=
  match argStr s with
  | .exc x => .ok (.exc x)
  | .ret s =>
    match newFromString (some s) with
    | .error (.err _) => .ok (.exc .value)
    | .error e => .error e
    | .ok n => .ok (.ret n)

/-- `Country_init`, python/country.c:47-59: no exception is set. -/
def pyCountry (s : Bytes) : Res (Call Country) :=
  match argStr s with
  | .exc x => .ok (.exc x)
  | .ret s =>
    match countryNew (some s) with
    | .error (.err _) => .ok (.exc .system)
    | .error e => .error e
    | .ok c => .ok (.ret c)

/-- `Network_set_country_code`, python/network.c:104-117; a string (what comes before a NUL inside, the length is not
    asked for). -/
def pySetCountryCode (n : Network) (s : Bytes) : Res (Call Network) :=
  match setCountryCode n (some (s.takeWhile (· ≠ 0))) with
  | .error (.err _) => .ok (.exc .value)
  | .error e => .error e
  | .ok n => .ok (.ret n)

/-- `Network_set_asn`, python/network.c:128-150 (`long` has 64 bits; `PyLong_AsLong` returns -1 for larger numbers, for
    which the `ValueError` replaces its `OverflowError`). -/
def pySetAsn (n : Network) (asn : Int) : Call Network :=
  if asn ≤ 0 ∨ 2 ^ 32 ≤ asn then .exc .value else .ret (setAsn n (BitVec.ofInt 32 asn))

/-- `Writer_add_as`, python/writer.c:148-164 -/
def pyAddAs {K : Type} (w : Writer K) (n : Int) : Call AS × Writer K :=
  match argInt n with
  | .exc x => (.exc x, w)
  | .ret number => (.ret ⟨number, none⟩, addAs w number none)

/-- `Writer_add_country`, python/writer.c:166-190: `loc_country_new` reports its error as 1, not as `-EINVAL`. -/
def pyAddCountry {K : Type} (w : Writer K) (s : Bytes) : Res (Call Country × Writer K) :=
  match argStr s with
  | .exc x => .ok (.exc x, w)
  | .ret s =>
    match countryNew (some s) with
    | .error (.err _) => .ok (.exc .system, w)
    | .error e => .error e
    | .ok c => .ok (.ret c, { w with countries := countryListAppend w.countries c })

/-- `Writer_add_network`, python/writer.c:192-219: `loc_network_new_from_string` reports its errors as 1, not as
    `-EINVAL`; `loc_network_tree_add_network` returns `-EBUSY`. -/
def pyAddNetwork {K : Type} (w : Writer K) (s : Bytes) : Res (Call Network × Writer K) :=
  match argStr s with
  | .exc x => .ok (.exc x, w)
  | .ret s =>
    match newFromString (some s) with
    | .error (.err _) => .ok (.exc .system, w)
    | .error e => .error e
    | .ok n =>
      match addNetwork w n with
      | .error e => .error e
      | .ok (r, w) => if r = 0 then .ok (.ret n, w) else .ok (.exc .index, w)

/-- `Network_exclude`, python/network.c:180-193, with `PyList_FromNetworkList` (lines 30-46), which takes the networks
    from the end of the list.  If `loc_network_exclude` fails, its result is `NULL`, and `loc_network_list_unref`
    (network-list.c) writes through it. -/
def pyExclude (self other : Network) : Res (List Network) :=
  match exclude self other with
  | .error (.err _) => .error .oob
  | .error e => .error e
  | .ok l => .ok l.reverse

/-! ## Lua and Perl -/

/-- A script string as a C function sees it: up to the first NUL. -/
def scriptStr (s : Bytes) : CStr := s.takeWhile (· ≠ 0)

/-- `Database_get_as`, lua/database.c:135-156; the number is taken to be an integer below 2^32. -/
def luaGetAs (db : Db) (number : BitVec 32) : Res (Option AS) := getAs db number

/-- `Database_get_country`, lua/database.c:158-179.  If nothing was found the country is `NULL`, and `create_country`
    (lua/country.c:43-54) passes it to `loc_country_ref` (country.c:73-77), which writes through it. -/
def luaGetCountry (db : Db) (s : Bytes) : Res (Option Country) :=
  match getCountry db (some (scriptStr s)) with
  | .error e => .error e
  | .ok .failed => .ok none
  | .ok .missing => .error .oob
  | .ok (.found c) => .ok (some c)

/-- `newSVpv(s, strlen(s))`: a null pointer is read. -/
def perlStr (s : Option CStr) : Res CStr :=
  match s with
  | none => .error .oob
  | some s => .ok s

/-- `get_country_name`, perl/Location.xs:261-281; `loc_country_get_name(NULL)` reads through the null pointer. -/
def perlCountryName (db : Db) (s : Bytes) : Res (Option CStr) :=
  match getCountry db (some (scriptStr s)) with
  | .error e => .error e
  | .ok .failed => .ok none
  | .ok .missing => .error .oob
  | .ok (.found c) => (perlStr c.name).map some

/-- `get_continent_code`, perl/Location.xs:283-303 -/
def perlContinent (db : Db) (s : Bytes) : Res (Option CStr) :=
  match getCountry db (some (scriptStr s)) with
  | .error e => .error e
  | .ok .failed => .ok none
  | .ok .missing => .error .oob
  | .ok (.found c) => (perlStr (countryContinent c)).map some

/-- `get_as_name`, perl/Location.xs:305-326 -/
def perlAsName (db : Db) (number : BitVec 32) : Res (Option CStr) :=
  match getAs db number with
  | .error e => .error e
  | .ok none => .ok none
  | .ok (some a) => (perlStr a.name).map some

/-- `lookup_country_code`, perl/Location.xs:163-188; `none` outside: the call dies with an error message. -/
def perlLookupCountry (db : Db) (s : Bytes) : Res (Option (Option CStr)) :=
  match lookupFromString db (scriptStr s) with
  | .error e => .error e
  | .ok (some (.ok none)) => .ok (some none)
  | .ok (some (.ok (some n))) => .ok (some (some (countryCode n)))
  | .ok _ => .ok none

/-- `lookup_asn`, perl/Location.xs:231-256 -/
def perlLookupAsn (db : Db) (s : Bytes) : Res (Option (Option Nat)) :=
  match lookupFromString db (scriptStr s) with
  | .error e => .error e
  | .ok (some (.ok none)) => .ok (some none)
  | .ok (some (.ok (some n))) => .ok (some (if n.asn = 0 then none else some n.asn.toNat))
  | .ok _ => .ok none

end Loc
