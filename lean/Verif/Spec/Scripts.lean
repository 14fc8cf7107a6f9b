import Verif.Model.Scripts
import Verif.Spec.Bindings
import Verif.Spec.Dump
/-
What a user of Lua and Perl expects.
-/
namespace Loc.Spec
open Loc

/-- The names of the flags in Perl and their bits. -/
def scriptFlags : List (String × Nat) :=
  [("LOC_NETWORK_FLAG_ANONYMOUS_PROXY", 0), ("LOC_NETWORK_FLAG_SATELLITE_PROVIDER", 1), ("LOC_NETWORK_FLAG_ANYCAST", 2),
    ("LOC_NETWORK_FLAG_DROP", 3)]

/-- The AS of a network, if it has one. -/
def asnOf (n : Network) : Option Nat := if (props n).2.1 = 0 then none else some (props n).2.1.toNat

/-- The country of a network, if it has one. -/
def countryOf (n : Network) : Option CStr := if (props n).1 = [] then none else some (props n).1

/-- Does the network have the flag? -/
def flagOf (n : Network) (i : Nat) : Bool := (props n).2.2.getLsbD i

/-- The full claim about Perl: what it says about the network that was found, or that none was found. -/
def PerlSays (db : Db) (s : Bytes) (r : Option Network) : Prop :=
  perlLookupCountry db s = .ok (some (r.bind countryOf)) ∧ perlLookupAsn db s = .ok (some (r.bind asnOf)) ∧
    ∀ x ∈ scriptFlags, perlHasFlag db s (ascii x.1) = .ok (some (r.any (flagOf · x.2)))

/-- Calling `next` again and again gives these objects, and then says that there are no more; no call fails. -/
inductive CallsYield {σ α : Type} (next : σ → Res (Next α × σ)) : σ → List α → Prop
  | done {s s' : σ} : next s = .ok (.done, s') → CallsYield next s []
  | item {s s' : σ} {x : α} {l : List α} : next s = .ok (.item x, s') → CallsYield next s' l → CallsYield next s (x :: l)

end Loc.Spec
