import Verif.Spec.Writer
/-
What the calls on a writer may add to the file.
-/
namespace Loc.Spec
open Loc

/-- A string with the byte that terminates it; no string takes the place of an empty one. -/
def stringBytes : Option CStr → Nat
  | none => 1
  | some s => s.length + 1

/-- The bytes a call may add: strings; 8 bytes for an AS or a country; 12 bytes for a network and 12 for every
    bit of its prefix (IPv4 prefixes are 96 bits longer than they are written). -/
def callBytes {K : Type} : WOp K → Nat
  | .vendor s => stringBytes s
  | .description s => stringBytes s
  | .license s => stringBytes s
  | .addAs _ name => 8 + stringBytes name
  | .renameAs _ name => stringBytes name
  | .addCountry _ _ name => 8 + stringBytes name
  | .addNetwork n => 12 * (n.pfx + 1)
  | .changeNetwork _ _ => 0
  | .write _ _ _ => 0

end Loc.Spec
