import Verif.Model.Compare
import Verif.Spec.Network
/-
What objects of the bindings stand for, and how that is ordered.
-/
namespace Loc.Spec
open Loc

/-- What an object stands for: a block of addresses, a number, a code; or just itself. -/
inductive Meaning
  | block (first pfx : Nat)
  | number (n : Nat)
  | code (c0 c1 : Nat)
  | itself (id : Nat)
  deriving DecidableEq

def meaning (x : PyRef) : Meaning :=
  match x.thing with
  | .network (some n) => .block (value n.first) n.pfx
  | .as (some a) => .number a.number.toNat
  | .country (some c) => .code c.c0.toNat c.c1.toNat
  | _ => .itself x.id

/-- Objects whose `__init__` has succeeded -/
def Made (x : PyRef) : Prop := x.thing ≠ .network none ∧ x.thing ≠ .as none ∧ x.thing ≠ .country none

/-- The natural order: blocks by first address, larger ones first; numbers; codes in alphabetical order. -/
def Earlier : Meaning → Meaning → Prop
  | .block a p, .block b q => a < b ∨ a = b ∧ p < q
  | .number m, .number n => m < n
  | .code a b, .code c d => a < c ∨ a = c ∧ b < d
  | _, _ => False

/-- Objects of the same type, one of the three of the library -/
def Alike (x y : PyRef) : Prop :=
  match x.thing, y.thing with
  | .network _, .network _ => True
  | .as _, .as _ => True
  | .country _, .country _ => True
  | _, _ => False

end Loc.Spec
