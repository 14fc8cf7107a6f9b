import Verif.Model.Bindings
import Verif.Model.Enumerator
import Verif.Model.Text
/-
Model of lookups and listings from Lua and Perl: `src/lua/database.c`, `src/lua/network.c`, `src/perl/Location.xs`.
`none` outside: the call raises an error (Lua) or dies (Perl).
-/
namespace Loc

/-- `Database_lookup`, lua/database.c:181-206 -/
def luaLookup (db : Db) (s : Bytes) : Res (Option (Option Network)) :=
  match lookupFromString db (scriptStr s) with
  | .error e => .error e
  | .ok (some (.ok r)) => .ok (some r)
  | .ok _ => .ok none

/-- "LOC_NETWORK_FLAG_" -/
def strFlag : CStr := [76, 79, 67, 95, 78, 69, 84, 87, 79, 82, 75, 95, 70, 76, 65, 71, 95]

/-- "ANONYMOUS_PROXY" -/
def strFlagProxy : CStr := [65, 78, 79, 78, 89, 77, 79, 85, 83, 95, 80, 82, 79, 88, 89]

/-- "SATELLITE_PROVIDER" -/
def strFlagSatellite : CStr := [83, 65, 84, 69, 76, 76, 73, 84, 69, 95, 80, 82, 79, 86, 73, 68, 69, 82]

/-- "ANYCAST" -/
def strFlagAnycast : CStr := [65, 78, 89, 67, 65, 83, 84]

/-- "DROP" -/
def strFlagDrop : CStr := [68, 82, 79, 80]

/-- perl/Location.xs:201-212 -/
def perlFlag (s : CStr) : Option (BitVec 32) :=
  if s = strFlag ++ strFlagProxy then some FLAG_ANONYMOUS_PROXY
  else if s = strFlag ++ strFlagSatellite then some FLAG_SATELLITE_PROVIDER
  else if s = strFlag ++ strFlagAnycast then some FLAG_ANYCAST
  else if s = strFlag ++ strFlagDrop then some FLAG_DROP
  else none

/-- `lookup_network_has_flag`, perl/Location.xs:190-229 -/
def perlHasFlag (db : Db) (s flag : Bytes) : Res (Option Bool) :=
  match perlFlag (scriptStr flag) with
  | none => .ok none
  | some f =>
    match lookupFromString db (scriptStr s) with
    | .error e => .error e
    | .ok (some (.ok none)) => .ok (some false)
    | .ok (some (.ok (some n))) => .ok (some (decide (hasFlag n f ≠ 0)))
    | .ok _ => .ok none

/-- `database_countries`, perl/Location.xs:120-157: `newSVpv(ccode, 2)` takes two bytes of the buffer.  `fuel` bounds the number
    of calls. -/
def perlCountries (db : Db) (fuel : Nat) : Res (Option (List CStr)) :=
  match drain (nextCountry db) fuel 0 with
  | .error e => .error e
  | .ok (l, done, _) => .ok (if done then some (l.map fun c => [c.c0, c.c1]) else none)

/-- `for network in db:list_networks()`, lua/database.c:256-299: the closure is called until it returns `nil`. -/
def luaNetworks (db : Db) (fuel : Nat) : Res (Option (List Network)) :=
  match drain (nextNetwork db) fuel (enumNew ⟨0, none, none, 0⟩) with
  | .error e => .error e
  | .ok (l, done, _) => .ok (if done then some l else none)

/-- `Network_new`, lua/network.c:56-74 -/
def luaNetwork (s : Bytes) : Res (Option Network) :=
  match newFromString (some (scriptStr s)) with
  | .error (.err _) => .ok none
  | .error e => .error e
  | .ok n => .ok (some n)

/-- `Network_get_asn`, lua/network.c:99-111 -/
def luaAsn (n : Network) : Option Nat := if n.asn = 0 then none else some n.asn.toNat

/-- `Network_get_country_code`, lua/network.c:126-138 -/
def luaCountryCode (n : Network) : Option CStr := if countryCode n = [] then none else some (countryCode n)

/-- `Network_has_flag`, lua/network.c:142-152 -/
def luaHasFlag (n : Network) (flag : BitVec 32) : Bool := decide (hasFlag n flag ≠ 0)

/-- `Network_subnets`, lua/network.c:156-183 -/
def luaSubnets (n : Network) : Res (Option (Network × Network)) :=
  match subnets n with
  | .error (.err _) => .ok none
  | .error e => .error e
  | .ok r => .ok (some r)

/-- `Network_reverse_pointer`, lua/network.c:186-212 -/
def luaReversePointer (n : Network) (suffix : Option CStr) : Res (Option (Option CStr)) :=
  match reversePointer n suffix with
  | .error (.err code) => .ok (if code = ENOTSUP then some none else none)
  | .error e => .error e
  | .ok s => .ok (some (some s))

/-- `Database_get_vendor`, `Database_get_description`, `Database_get_license`, lua/database.c:106-133, and the same in
    perl/Location.xs:91-119: `nil`/`undef` for `NULL` -/
def scriptMeta (db : Db) : Res (Option CStr × Option CStr × Option CStr) :=
  match dbVendor db, dbDescription db, dbLicense db with
  | .ok v, .ok d, .ok l => .ok (v, d, l)
  | .error e, _, _ => .error e
  | _, .error e, _ => .error e
  | _, _, .error e => .error e

/-- `Database_verify`, lua/database.c:208-230, for a key file that can be opened -/
def luaVerify {P : Type} (v : VEnv P) (db : Db) : Res Bool :=
  match dbVerify v db with
  | .error e => .error e
  | .ok r => .ok (decide (r = 0))

/-- `verify`, perl/Location.xs:61-89, for a key file that can be opened: it dies instead of returning false. -/
def perlVerify {P : Type} (v : VEnv P) (db : Db) : Res (Option Bool) :=
  match dbVerify v db with
  | .error e => .error e
  | .ok r => .ok (if r = 0 then some true else none)

end Loc
