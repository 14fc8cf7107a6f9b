import Verif.Model.Names
/-
What a caller expects of the names of ASes and countries: each object has a name, or none.
-/
namespace Loc.Spec
open Loc

/-- How many references the caller holds and the name that was last set. -/
structure Named where
  country : Bool
  refs : Nat
  name : Option CStr
  deriving DecidableEq

/-- The object, if the caller holds a reference to it. -/
def held (S : List Named) (o : Nat) : Option Named := S[o]?.filter fun x => x.refs ≠ 0

/-- The name that an argument of `set_name` stands for -/
def argName (S : List Named) : NameArg → Option (Option CStr)
  | .null => some none
  | .str s => some (some s)
  | .nameOf o => (held S o).map (·.name)

/-- The expected effect of a call.  No result: the caller uses an object it holds no reference to. -/
def namedStep (S : List Named) : NameOp → Option (List Named × Option (Option CStr))
  | .new country => some (S ++ [⟨country, 1, none⟩], none)
  | .ref o => (held S o).map fun x => (S.set o { x with refs := x.refs + 1 }, none)
  | .unref o => (held S o).map fun x => (S.set o { x with refs := x.refs - 1 }, none)
  | .setName o arg => (held S o).bind fun x => (argName S arg).map fun n => (S.set o { x with name := n }, none)
  | .getName o => (held S o).map fun x => (S, some x.name)

def namedRun (S : List Named) : List NameOp → Option (List Named × List (Option (Option CStr)))
  | [] => some (S, [])
  | op :: ops =>
    match namedStep S op with
    | none => none
    | some (S, o) => (namedRun S ops).map fun r => (r.1, o :: r.2)

/-- The two calls that do not work for an object that has a name: taking away the name of a country, and setting the name of
    an object to the pointer that `get_name` returned for the same object. -/
def Unsupported (S : List Named) : NameOp → Prop
  | .setName o arg => ∃ x, held S o = some x ∧ x.name ≠ none ∧ ((x.country = true ∧ argName S arg = some none) ∨ arg = .nameOf o)
  | _ => False

/-- No call of a sequence is one of those. -/
def AllSupported (S : List Named) : List NameOp → Prop
  | [] => True
  | op :: ops => ¬ Unsupported S op ∧
    match namedStep S op with
    | none => True
    | some (S', _) => AllSupported S' ops

end Loc.Spec
