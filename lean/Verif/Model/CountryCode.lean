import Verif.Model.Basic
/-
Model of the country code helpers of `src/country.c` and `src/libloc/country.h`.
-/
namespace Loc

/-- `'A' <= c && c <= 'Z'`, country.c:206-209 (`char` may be signed: bytes above 127 are then
    negative and rejected by the other comparison, with the same result). -/
def isUpper (c : Byte) : Bool := !(decide (c < 65) || decide (c > 90))

/-- `loc_country_code_is_valid`, country.c:196-217; `none` is `NULL`. -/
def ccIsValid (cc : Option CStr) : Bool :=
  match cc with
  | none => false
  | some [] => false
  | some s =>
    match s with
    | [c0, c1] =>                      -- strlen(cc) == 2
      if !isUpper c0 then false
      else if !isUpper c1 then false
      else if c0 == 88 then false      -- 'X'
      else true
    | _ => false

/-- `enum loc_network_flags`, libloc/network.h:27-30 -/
def FLAG_ANONYMOUS_PROXY : BitVec 32 := 1
def FLAG_SATELLITE_PROVIDER : BitVec 32 := 2
def FLAG_ANYCAST : BitVec 32 := 4
def FLAG_DROP : BitVec 32 := 8

/-- `loc_special_countries`, country.c:27-36: "A1", "A2", "A3", "XD" -/
def specialCountries : List (CStr × BitVec 32) :=
  [([65, 49], FLAG_ANONYMOUS_PROXY), ([65, 50], FLAG_SATELLITE_PROVIDER),
   ([65, 51], FLAG_ANYCAST), ([88, 68], FLAG_DROP)]

/-- `loc_country_special_code_to_flag`, country.c:219-234.  `-1` is the all-ones word.
    `strncmp(code, cc, 2) == 0` for a two character `code` means that `cc` starts with `code`. -/
def specialCodeToFlag (cc : Option CStr) : BitVec 32 :=
  match cc with
  | none => -1
  | some [] => -1
  | some s =>
    match specialCountries.find? (fun e => e.1 == s.take 2) with
    | some e => e.2
    | none => 0

/-- `memcmp` on two bytes: sign of the first difference, country.h `loc_country_code_cmp`. -/
def ccCmp (a0 a1 b0 b1 : Byte) : Int :=
  if a0 < b0 then -1 else if b0 < a0 then 1
  else if a1 < b1 then -1 else if b1 < a1 then 1 else 0

/-- The C string seen by a caller in a three byte buffer `{c0, c1, '\0'}`. -/
def ccString (c0 c1 : Byte) : CStr :=
  if c0 = 0 then [] else if c1 = 0 then [c0] else [c0, c1]

end Loc
