import Verif.Model.Cli
import Verif.Spec.Writer
import Verif.Spec.Text
import Verif.Spec.Network
/-
What a user of the language bindings and of the command line tool expects.  65 83 is "AS", 32 45 32 is " - ".
-/
namespace Loc.Spec
open Loc

/-- The AS with this number, as it was given to the writer. -/
def KnownAs {K : Type} (ops : List (WOp K)) (n : Nat) : Option AS :=
  (asesOf ops (BitVec.ofNat 32 n)).map fun name => ⟨BitVec.ofNat 32 n, some (name.getD [])⟩

/-- "AS64512 - Name" or "AS64512" -/
def AsText (number : Nat) (name : Option CStr) (s : CStr) : Prop :=
  ∃ d, Numeral 10 number d ∧ s = [65, 83] ++ d ++ match name with
    | some name => [32, 45, 32] ++ name
    | none => []

/-- The answer is the country with this code as it was given to the writer, or none if there was none. -/
def IsCountry {K : Type} (ops : List (WOp K)) (code : CStr) (r : Option Country) : Prop :=
  match countriesOf ops code with
  | none => r = none
  | some (continent, name) => ∃ c, r = some c ∧ countryGetCode c = code ∧ countryContinent c = continent ∧ c.name = some (name.getD [])

/-- What is printed about the country of a network: the name if the code is known, otherwise the code. -/
def CountryLine {K : Type} (ops : List (WOp K)) (code : CStr) : List CliLine :=
  if code = [] then []
  else [.country (some (match countriesOf ops code with
    | some (_, name) => name.getD []
    | none => code))]

/-- What is printed about the AS of a network: its number, and the name if it is known. -/
def AsLine {K : Type} (ops : List (WOp K)) (asn : BitVec 32) (lines : List CliLine) : Prop :=
  if asn = 0 then lines = []
  else ∃ s, AsText asn.toNat ((asesOf ops asn).map fun name => name.getD []) s ∧ lines = [.as s]

/-- What is printed about a network. -/
def NetworkLines {K : Type} (ops : List (WOp K)) (s : Bytes) (m : Network) (lines : List CliLine) : Prop :=
  ∃ as, AsLine ops m.asn as ∧ lines = [.address s, .network m] ++ CountryLine ops (props m).1 ++ as ++
    (([1, 2, 4, 8] : List (BitVec 32)).filter fun f => decide (m.flags &&& f ≠ 0)).map CliLine.flag

/-- What is printed for a list of addresses, given the answers to the lookups. -/
inductive Session {K : Type} (ops : List (WOp K)) (answers : Addr → Option Network → Prop) :
    List Bytes → List (Option Network) → List CliLine → Prop
  | nil : Session ops answers [] [] []
  | nothing {s : Bytes} {a : Addr} {rest : List Bytes} {rs : List (Option Network)} {lines : List CliLine} :
      Denotes (beforeSlash s) a → answers a none → Session ops answers rest rs lines →
      Session ops answers (s :: rest) (none :: rs) (.nothing s :: lines)
  | found {s : Bytes} {a : Addr} {m : Network} {l : List CliLine} {rest : List Bytes} {rs : List (Option Network)} {lines : List CliLine} :
      Denotes (beforeSlash s) a → answers a (some m) → NetworkLines ops s m l → Session ops answers rest rs lines →
      Session ops answers (s :: rest) (some m :: rs) (l ++ lines)

/-- What is printed for one argument of `location get-as`. -/
def AsAnswer {K : Type} (ops : List (WOp K)) : Option Nat → CliLine
  | none => .invalidAsn
  | some n => match asesOf ops (BitVec.ofNat 32 n) with
    | some name => .belongs n (name.getD [])
    | none => .noAs n

end Loc.Spec
