import Verif.Spec.Dump
import Verif.Spec.Bindings
/-
What `location lookup` shows.
-/
namespace Loc.Spec
open Loc

/-- What is shown about an address. -/
structure Displayed where
  address : Bytes
  network : Bytes
  country : Option Bytes
  as : Option Bytes
  proxy : Bool
  satellite : Bool
  anycast : Bool
  drop : Bool
  deriving DecidableEq

/-- The lines behind the first two. -/
def shownMore (x : Displayed) : List Bytes :=
  x.country.toList.map (ascii "  Country                 : " ++ ·) ++
  x.as.toList.map (ascii "  Autonomous System       : " ++ ·) ++
  (if x.proxy then [ascii "  Anonymous Proxy         : yes"] else []) ++
  (if x.satellite then [ascii "  Satellite Provider      : yes"] else []) ++
  (if x.anycast then [ascii "  Anycast                 : yes"] else []) ++
  (if x.drop then [ascii "  Hostile Network safe to drop: yes"] else [])

/-- The lines in which it is shown. -/
def shownLines (x : Displayed) : List Bytes :=
  (x.address ++ ascii ":") :: (ascii "  Network                 : " ++ x.network) :: shownMore x

/-- The whole text: each line ends with a newline. -/
def shownText (xs : List Displayed) : Bytes := (xs.flatMap shownLines).flatMap (· ++ [10])

/-- There are no newlines in the texts, and the address does not begin with a space. -/
structure PlainDisplay (x : Displayed) : Prop where
  address : 10 ∉ x.address
  start : x.address.head? ≠ some 32
  network : 10 ∉ x.network
  country : ∀ t, x.country = some t → 10 ∉ t
  as : ∀ t, x.as = some t → 10 ∉ t

/-- `x` says what the database holds about the network `m`, which was found for the text `s`. -/
structure ShowsNetwork {K : Type} (ops : List (WOp K)) (s : Bytes) (m : Network) (x : Displayed) : Prop where
  address : x.address = s
  network : x.network = netText m
  country : x.country = if (props m).1 = [] then none else some (match countriesOf ops (props m).1 with
    | some (_, name) => name.getD []
    | none => (props m).1)
  noAs : m.asn = 0 → x.as = none
  as : m.asn ≠ 0 → ∃ t, x.as = some t ∧ AsText m.asn.toNat ((asesOf ops m.asn).map fun name => name.getD []) t
  proxy : x.proxy = decide (m.flags &&& 1 ≠ 0)
  satellite : x.satellite = decide (m.flags &&& 2 ≠ 0)
  anycast : x.anycast = decide (m.flags &&& 4 ≠ 0)
  drop : x.drop = decide (m.flags &&& 8 ≠ 0)

/-- The networks that were found are described in this order. -/
inductive ShowsSession {K : Type} (ops : List (WOp K)) : List Bytes → List (Option Network) → List Displayed → Prop
  | nil : ShowsSession ops [] [] []
  | nothing {s : Bytes} {args : List Bytes} {rs : List (Option Network)} {xs : List Displayed} :
      ShowsSession ops args rs xs → ShowsSession ops (s :: args) (none :: rs) xs
  | found {s : Bytes} {m : Network} {x : Displayed} {args : List Bytes} {rs : List (Option Network)} {xs : List Displayed} :
      ShowsNetwork ops s m x → ShowsSession ops args rs xs → ShowsSession ops (s :: args) (some m :: rs) (x :: xs)

/-- The given ASes that are known, with their names. -/
def knownAs {K : Type} (ops : List (WOp K)) (args : List (Option Nat)) : List (Nat × CStr) :=
  args.filterMap fun x => x.bind fun n => (asesOf ops (BitVec.ofNat 32 n)).map fun name => (n, name.getD [])

/-- A line "AS… belongs to …" for each. -/
inductive Sentences : List (Nat × CStr) → Bytes → Prop
  | nil : Sentences [] []
  | cons {n : Nat} {name d : CStr} {l : List (Nat × CStr)} {text : Bytes} : Numeral 10 n d → Sentences l text →
      Sentences ((n, name) :: l) (ascii "AS" ++ d ++ ascii " belongs to " ++ name ++ [10] ++ text)

end Loc.Spec
