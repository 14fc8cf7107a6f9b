import Verif.Spec.Text
import Verif.Model.Format
/-
What the programs that read the output files make of them: `ipset restore` and `nft -f`.
-/
namespace Loc.Spec
open Loc

/-- The pieces of a text between separators. -/
def pieces (sep : Byte) : Bytes → List Bytes
  | [] => [[]]
  | c :: s =>
    if c = sep then [] :: pieces sep s
    else match pieces sep s with
      | [] => [[c]]
      | p :: ps => (c :: p) :: ps

/-- The pieces that are not empty: lines (separator 10, newline) or words (separator 32, space). -/
def fields (sep : Byte) (s : Bytes) : List Bytes := (pieces sep s).filter (fun p => !p.isEmpty)

/-- Not empty, without newline and space. -/
def Plain (s : CStr) : Prop := s ≠ [] ∧ 10 ∉ s ∧ 32 ∉ s

instance (s : CStr) : Decidable (Plain s) := inferInstanceAs (Decidable (_ ∧ _ ∧ _))

/-- The text is the one of the network: its first address, a slash, and the length of its prefix. -/
def Shows (s : CStr) (n : Network) : Prop :=
  ∃ t d p m, s = t ++ 47 :: d ∧ Denotes t n.first ∧ LargestPrefix t m ∧ Numeral 10 p d ∧ p ≤ m ∧ n.pfx + m = p + 128

/-- The value of a decimal number. -/
def numberOf (s : CStr) : Option Nat :=
  if s.isEmpty then none
  else (s.mapM fun c => (digitOf c).filter (· < 10)).map (ofDigits 10)

/-- A set of networks in the kernel. -/
structure IpSet where
  name : CStr
  inet6 : Bool
  maxelem : Nat
  elems : List CStr
  deriving DecidableEq, Repr

/-- "create", "hash:net", "family", "hashsize", "maxelem", "-exist" -/
def createWords : List CStr := [[99, 114, 101, 97, 116, 101], [104, 97, 115, 104, 58, 110, 101, 116], [102, 97, 109, 105, 108, 121],
  [104, 97, 115, 104, 115, 105, 122, 101], [109, 97, 120, 101, 108, 101, 109], [45, 101, 120, 105, 115, 116]]

/-- "inet", "inet6" -/
def inetWord : CStr := [105, 110, 101, 116]
def inet6Word : CStr := [105, 110, 101, 116, 54]

/-- "flush", "add" -/
def flushWord : CStr := [102, 108, 117, 115, 104]
def addWord : CStr := [97, 100, 100]

/-- `create … -exist`: nothing happens if the set exists. -/
def ipsetCreate (S : List IpSet) (name fam size maxelem : CStr) : Option (List IpSet) :=
  if S.any (·.name == name) then some S
  else if fam ≠ inetWord ∧ fam ≠ inet6Word then none
  else
    match numberOf size, numberOf maxelem with
    | some _, some m => some (S ++ [⟨name, decide (fam = inet6Word), m, []⟩])
    | _, _ => none

/-- `flush`: the set must exist and becomes empty. -/
def ipsetFlush (S : List IpSet) (name : CStr) : Option (List IpSet) :=
  if S.any (·.name == name) then some (S.map fun x => if x.name = name then { x with elems := [] } else x) else none

/-- `add`: the set must exist and be of the family of the element (58 is ':'), have room, and not contain the element. -/
def ipsetAdd (S : List IpSet) (name elem : CStr) : Option (List IpSet) :=
  if S.any (fun x => x.name == name && x.inet6 == elem.contains 58 && !x.elems.contains elem && decide (x.elems.length < x.maxelem)) then
    some (S.map fun x => if x.name = name then { x with elems := x.elems ++ [elem] } else x)
  else none

/-- One line of the input of `ipset restore`. -/
def ipsetLine (S : List IpSet) (line : Bytes) : Option (List IpSet) :=
  match fields 32 line with
  | [w, name] => if w = flushWord then ipsetFlush S name else none
  | [w, name, elem] => if w = addWord then ipsetAdd S name elem else none
  | [w0, name, w1, w2, fam, w3, size, w4, maxelem, w5] =>
    if [w0, w1, w2, w3, w4, w5] = createWords then ipsetCreate S name fam size maxelem else none
  | _ => none

def ipsetLines (S : List IpSet) : List Bytes → Option (List IpSet)
  | [] => some S
  | l :: ls =>
    match ipsetLine S l with
    | none => none
    | some S => ipsetLines S ls

/-- `ipset restore` on a system without sets: the sets afterwards, or none if it fails. -/
def ipsetRestore (content : Bytes) : Option (List IpSet) := ipsetLines [] (fields 10 content)

/-- "define", "=", "{", "}" -/
def defineWords : List CStr := [[100, 101, 102, 105, 110, 101], [61], [123]]
def closeWord : CStr := [125]

/-- An element of a set: a tabulator, the element, a comma. -/
def nftElem (line : Bytes) : Option CStr :=
  match line with
  | 9 :: s => if s.getLast? = some 44 then some s.dropLast else none
  | _ => none

/-- The lines of definitions of sets in nftables syntax: names and elements. -/
def nftLines : (cur : Option (CStr × List CStr)) → List Bytes → Option (List (CStr × List CStr))
  | none, [] => some []
  | some _, [] => none
  | none, l :: ls =>
    match fields 32 l with
    | [w0, name, w1, w2] => if [w0, w1, w2] = defineWords then nftLines (some (name, [])) ls else none
    | _ => none
  | some (name, elems), l :: ls =>
    if l = closeWord then (nftLines none ls).map ((name, elems) :: ·)
    else match nftElem l with
      | some e => nftLines (some (name, elems ++ [e])) ls
      | none => none

def nftRead (content : Bytes) : Option (List (CStr × List CStr)) := nftLines none (fields 10 content)

end Loc.Spec
