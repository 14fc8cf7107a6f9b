import Verif.Model.Cli
import Verif.Model.Dump
/-
Model of the text that `location lookup` and `location get-as` print on standard output, `src/scripts/location.in`.  The texts
are those without a translation; names are bytes (see C62).
-/
namespace Loc

/-- `"  %-24s: %s"` and the newline of `print`, location.in:266 -/
def cliField (label value : CStr) : Bytes := [32, 32] ++ label ++ List.replicate (24 - label.length) 32 ++ [58, 32] ++ value ++ [10]

/-- "Network", location.in:286 -/
def labelNetwork : CStr := [78, 101, 116, 119, 111, 114, 107]
/-- "Country", location.in:293 -/
def labelCountry : CStr := [67, 111, 117, 110, 116, 114, 121]
/-- "Autonomous System", location.in:302 -/
def labelAs : CStr := [65, 117, 116, 111, 110, 111, 109, 111, 117, 115, 32, 83, 121, 115, 116, 101, 109]
/-- "Anonymous Proxy", location.in:309 -/
def labelProxy : CStr := [65, 110, 111, 110, 121, 109, 111, 117, 115, 32, 80, 114, 111, 120, 121]
/-- "Satellite Provider", location.in:315 -/
def labelSatellite : CStr := [83, 97, 116, 101, 108, 108, 105, 116, 101, 32, 80, 114, 111, 118, 105, 100, 101, 114]
/-- "Anycast", location.in:321 -/
def labelAnycast : CStr := [65, 110, 121, 99, 97, 115, 116]
/-- "Hostile Network safe to drop", location.in:327 -/
def labelDrop : CStr :=
  [72, 111, 115, 116, 105, 108, 101, 32, 78, 101, 116, 119, 111, 114, 107, 32, 115, 97, 102, 101, 32, 116, 111, 32, 100, 114, 111, 112]
/-- "None" -/
def strNone : CStr := [78, 111, 110, 101]
/-- " belongs to ", location.in:415 -/
def strBelongs : CStr := [32, 98, 101, 108, 111, 110, 103, 115, 32, 116, 111, 32]

/-- The flags and their labels, location.in:307-329 -/
def cliLabels : List (BitVec 32 × CStr) :=
  [(FLAG_ANONYMOUS_PROXY, labelProxy), (FLAG_SATELLITE_PROVIDER, labelSatellite), (FLAG_ANYCAST, labelAnycast), (FLAG_DROP, labelDrop)]

/-- What a line is on standard output; nothing, if it goes to standard error.  location.in:285-329, 415 -/
def cliLineText : CliLine → Bytes
  | .address s => s ++ [58, 10]
  | .network n => cliField labelNetwork (netText n)
  | .country (some t) => cliField labelCountry t
  | .country none => cliField labelCountry strNone
  | .as t => cliField labelAs t
  | .flag f =>
    match cliLabels.lookup f with
    | some label => cliField label strYes
    | none => []
  | .belongs number name => [65, 83] ++ decStr number ++ strBelongs ++ name ++ [10]
  | .nothing _ | .invalid _ | .noAs _ | .invalidAsn => []

/-- Standard output -/
def cliStdout (lines : List CliLine) : Bytes := lines.flatMap cliLineText

end Loc
