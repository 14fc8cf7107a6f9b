import Verif.Model.Bindings
/-
Model of the commands `location lookup` and `location get-as`, `src/scripts/location.in`.
-/
namespace Loc

/-- A line the command prints.  Only the values are kept, not the layout and the translated texts. -/
inductive CliLine
  /-- "…:" -/
  | address (s : Bytes)
  | network (n : Network)
  /-- the name of the country (`None` prints as such) or its code -/
  | country (text : Option CStr)
  | as (text : CStr)
  /-- one of the four flags is set -/
  | flag (f : BitVec 32)
  /-- on standard error: "Nothing found for …" -/
  | nothing (s : Bytes)
  /-- on standard error: "Invalid IP address: …" -/
  | invalid (s : Bytes)
  /-- "AS… belongs to …" -/
  | belongs (number : Nat) (name : CStr)
  /-- on standard error: "Could not find AS…" -/
  | noAs (n : Int)
  /-- on standard error: "Invalid ASN: …" -/
  | invalidAsn
  deriving DecidableEq, Repr

/-- The four flags, location.in:307-329 -/
def cliFlags : List (BitVec 32) := [FLAG_ANONYMOUS_PROXY, FLAG_SATELLITE_PROVIDER, FLAG_ANYCAST, FLAG_DROP]

/-- The line with the country, location.in:289-296 -/
def cliCountry (db : Db) (n : Network) : Res (Call (List CliLine)) :=
  if (countryCode n).isEmpty then .ok (.ret [])
  else match pyGetCountry db (countryCode n) with
    | .error e => .error e
    | .ok (.exc x) => .ok (.exc x)
    | .ok (.ret (some c)) => .ok (.ret [.country c.name])
    | .ok (.ret none) => .ok (.ret [.country (some (countryCode n))])

/-- The line with the AS, location.in:298-305.  `network.asn` is `None` for the number 0. -/
def cliAs (db : Db) (n : Network) : Res (Call (List CliLine)) :=
  if n.asn = 0 then .ok (.ret [])
  else match pyGetAs db n.asn.toNat with
    | .error e => .error e
    | .ok (.exc x) => .ok (.exc x)
    | .ok (.ret (some a)) => .ok (.ret [.as (asStr a)])
    | .ok (.ret none) => .ok (.ret [.as ([65, 83] ++ decStr n.asn.toNat)])

/-- What is printed for a network that was found, location.in:285-329, and the exception that ends it. -/
def cliNetwork (db : Db) (s : Bytes) (n : Network) : Res (List CliLine × Option Exc) :=
  match cliCountry db n with
  | .error e => .error e
  | .ok (.exc x) => .ok ([.address s, .network n], some x)
  | .ok (.ret country) =>
    match cliAs db n with
    | .error e => .error e
    | .ok (.exc x) => .ok ([.address s, .network n] ++ country, some x)
    | .ok (.ret as) =>
      .ok ([.address s, .network n] ++ country ++ as ++ (cliFlags.filter fun f => decide (hasFlag n f ≠ 0)).map CliLine.flag, none)

/-- `handle_lookup`, location.in:263-331: the lines that are printed, and the exit code or the exception. -/
def cliLookup (db : Db) (ret : Nat) : List Bytes → Res (List CliLine × Call Nat)
  | [] => .ok ([], .ret ret)
  | s :: rest =>
    match pyLookup db s with
    | .error e => .error e
    | .ok (.exc .value) => .ok ([.invalid s], .ret 2)
    | .ok (.exc x) => .ok ([], .exc x)
    | .ok (.ret none) =>
      match cliLookup db 1 rest with
      | .error e => .error e
      | .ok (lines, r) => .ok (.nothing s :: lines, r)
    | .ok (.ret (some n)) =>
      match cliNetwork db s n with
      | .error e => .error e
      | .ok (lines, some x) => .ok (lines, .exc x)
      | .ok (lines, none) =>
        match cliLookup db ret rest with
        | .error e => .error e
        | .ok (more, r) => .ok (lines ++ more, r)

/-- `handle_get_as`, location.in:391-417.  The arguments are the results of Python's `int`, `none` if it raises a
    `ValueError`. -/
def cliGetAs (db : Db) (ret : Nat) : List (Option Int) → Res (List CliLine × Call Nat)
  | [] => .ok ([], .ret ret)
  | none :: rest =>
    match cliGetAs db 1 rest with
    | .error e => .error e
    | .ok (lines, r) => .ok (.invalidAsn :: lines, r)
  | some n :: rest =>
    match pyGetAs db n with
    | .error e => .error e
    | .ok (.exc x) => .ok ([], .exc x)
    | .ok (.ret none) =>
      match cliGetAs db 1 rest with
      | .error e => .error e
      | .ok (lines, r) => .ok (.noAs n :: lines, r)
    | .ok (.ret (some a)) =>
      match pyAsName a with
      | .error e => .error e
      | .ok name =>
        match cliGetAs db ret rest with
        | .error e => .error e
        | .ok (lines, r) => .ok (.belongs a.number.toNat name :: lines, r)

end Loc
