import Verif.Spec.Export
import Verif.Spec.Formats
import Verif.Spec.Bindings
import Verif.Model.Listing
import Batteries.Data.List.Basic
/-
Specification vocabulary for the listing commands of `location`.
-/
namespace Loc.Spec
open Loc

/-- `m` has the addresses and the properties (the flags as far as files hold them, 16 bits) of `n`. -/
def SameData (n m : Network) : Prop :=
  SameBlock m n ∧ props m = ((props n).1, n.asn, BitVec.ofNat 32 (n.flags.toNat % 2 ^ 16))

/-- `L` are exactly the networks of `S` with `p`, in ascending order, without duplicates (`Ascending` is strict). -/
def Selection (S : List Network) (p : Network → Prop) (L : List Network) : Prop :=
  Ascending L ∧ (∀ n ∈ L, Block n) ∧ (∀ n ∈ S, p n → ∃ m ∈ L, SameData n m) ∧ ∀ m ∈ L, ∃ n ∈ S, p n ∧ SameData n m

/-- The network is of the family that was asked for, if one was. -/
def InFamilyArg (family : Option Family) (n : Network) : Prop :=
  match family with
  | none => True
  | some .inet => IsV4 n.first
  | some .inet6 => ¬ IsV4 n.first

/-- The text of an integer, with a minus sign if it is negative. -/
def IntText (n : Int) (s : CStr) : Prop :=
  (∃ k : Nat, n = k ∧ Numeral 10 k s) ∨ ∃ (k : Nat) (d : CStr), n = -(k : Int) ∧ 0 < k ∧ Numeral 10 k d ∧ s = 45 :: d

/-- The name of a set: "v4", "v6" or "v?" is appended. -/
def setName (name : CStr) (family : Option Family) : CStr :=
  name ++ match family with
    | some .inet => [118, 52]
    | some .inet6 => [118, 54]
    | none => [118, 63]

/-- What the reader of the format makes of the output: the lines of the list, one definition of nftables, one set of
    ipset. -/
def UnderstoodAs (fmt : Format) (name : CStr) (family : Option Family) (lines : List CStr) (content : Bytes) : Prop :=
  match fmt with
  | .list => fields 10 content = lines
  | .nftables => nftRead content = some [(setName name family, lines)]
  | .ipset => ipsetRestore content = some [⟨setName name family, decide (family = some .inet6), 1048576, lines⟩]
  | .xtGeoip => False

/-- The texts show the networks, one each. -/
def ShowsAll (lines : List CStr) (L : List Network) : Prop := List.Forall₂ Shows lines L

/-- What the format asks for: `ipset` a family, an output that was not opened for appending, at most 1048576 networks and
    a size of the hash table with at most eight digits; `xt_geoip` never works. -/
def FormatOk (fmt : Format) (expo : Nat → Nat) (family : Option Family) (kind : FileKind) (count : Nat) : Prop :=
  match fmt with
  | .list => True
  | .nftables => True
  | .ipset => family ≠ none ∧ kind ≠ .append ∧ count ≤ 1048576 ∧ hashsize expo count < 10 ^ 8
  | .xtGeoip => False

/-- The command prints the networks in the format and exits with 0, whatever standard output is; only the
    number of calls it needs is bounded by `fuel`. -/
def PrintsAll (cmd : Format → (Nat → Nat) → FileKind → (fuel : Nat) → Res (OutFile × Nat)) (name : CStr) (family : Option Family) (L : List Network) : Prop :=
  ∃ lines steps, ShowsAll lines L ∧ ∀ fmt expo kind, FormatOk fmt expo family kind L.length → ∀ fuel, steps ≤ fuel →
    ∃ out, cmd fmt expo kind fuel = .ok (out, 0) ∧ UnderstoodAs fmt name family lines out.content

/-- One of the flags that were asked for. -/
def HasOneOf (a : FlagArgs) (n : Network) : Prop :=
  (a.anonymousProxy = true ∧ n.flags.getLsbD 0 = true) ∨ (a.satelliteProvider = true ∧ n.flags.getLsbD 1 = true) ∨
  (a.anycast = true ∧ n.flags.getLsbD 2 = true) ∨ (a.drop = true ∧ n.flags.getLsbD 3 = true)

/-- A line of `list-countries`: the code, and with the options the continent and the name, separated by spaces. -/
def countryText (continent name : Bool) (code cont nm : CStr) : CStr :=
  code ++ (if continent then 32 :: cont else []) ++ (if name then 32 :: nm else [])

/-- The argument names an AS: "AS" and a decimal number. -/
def NamesAs (s : CStr) (x : Nat) : Prop := ∃ d, s = 65 :: 83 :: d ∧ numberOf d = some x

/-- The argument is a country code or one of the special codes. -/
def NamesCountry (s : CStr) : Prop := ValidCC s ∨ specialBit s ≠ none

end Loc.Spec
