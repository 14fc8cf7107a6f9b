import Verif.Spec.Enum
import Verif.Spec.Tree
import Verif.Model.Export
/-
Specification vocabulary for exports.
-/
namespace Loc.Spec
open Loc

/-- The flag (its bit) a special country code stands for: A1 anonymous proxy, A2 satellite provider, A3 anycast, XD
    hostile. -/
def specialBit (code : CStr) : Option Nat :=
  if code = [65, 49] then some 0
  else if code = [65, 50] then some 1
  else if code = [65, 51] then some 2
  else if code = [88, 68] then some 3
  else none

/-- The network belongs to the AS, to the country, or has the flag that the special country code stands for. -/
def BelongsTo (k : Key) (n : Network) : Prop :=
  match k with
  | .asn x => x ≠ 0 ∧ n.asn.toNat = x
  | .country c =>
    match specialBit c with
    | some i => n.flags.getLsbD i = true
    | none => (props n).1 = c

/-- The network is of the family (0: any, 2: IPv4, 10: IPv6). -/
def OfFamily (family : Nat) (n : Network) : Prop :=
  family ≠ 0 → family = 2 ∧ IsV4 n.first ∨ family = 10 ∧ ¬ IsV4 n.first

/-- One of the ordinary countries or one of the ASes that were asked for. -/
def Listed (countries : List CStr) (asns : List Nat) (n : Network) : Prop :=
  (∃ c ∈ countries, specialBit c = none ∧ (props n).1 = c) ∨ ∃ x ∈ asns, BitVec.ofNat 32 x = n.asn

/-- Only country codes that `location export` accepts. -/
def CodesOk (countries : List CStr) : Prop := ∀ c ∈ countries, ValidCC c ∨ specialBit c ≠ none

/-- The output was asked for. -/
def Asked (countries : List CStr) (asns : List Nat) : Key → Prop
  | .country c => c ∈ countries
  | .asn x => x ∈ asns

end Loc.Spec
