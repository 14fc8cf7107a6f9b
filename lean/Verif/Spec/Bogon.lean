import Verif.Spec.Summarize
/-
Specification vocabulary for bogon enumerations.  In this file `C` is a list of networks, the ones which have a country.
-/
namespace Loc.Spec

/-- The address `x` belongs to one of the networks of its family. -/
def CoveredInFamily (l : List Network) (x : Addr) : Prop := ∃ n ∈ l, (IsV4 n.first ↔ IsV4 x) ∧ Contains n x

/-- The network has a country. -/
def HasCountry (n : Network) : Prop := (props n).1 ≠ []

instance (n : Network) : Decidable (HasCountry n) := inferInstanceAs (Decidable (_ ≠ _))

/-- The networks that have a country. -/
def withCountry (l : List Network) : List Network := l.filter (fun n => decide (HasCountry n))

/-- The ranges of a family which `loc_network_list_summarize` covers exactly (see `range_summary_exact_iff`): CIDR
    blocks, and the lower half of the family together with a block at the start of the upper half. -/
def ExactRange (lo hi : Addr) : Prop :=
  (¬ AcrossMiddle lo hi ∧ BlockRange (value lo) (value hi)) ∨
  (AcrossMiddle lo hi ∧ value lo = familyFirst lo ∧ BlockRange (familyMiddle lo) (value hi))

/-- A maximal range of addresses of one family that belong to none of the networks. -/
structure MaximalGap (C : List Network) (lo hi : Addr) : Prop where
  fam : IsV4 lo ↔ IsV4 hi
  le : value lo ≤ value hi
  free : ∀ x, (IsV4 x ↔ IsV4 lo) → value lo ≤ value x → value x ≤ value hi → ¬ Covers C x
  start : value lo = familyFirst lo ∨ ∃ y, (IsV4 y ↔ IsV4 lo) ∧ Covers C y ∧ value y + 1 = value lo
  stop : value hi = familyLast hi ∨ ∃ y, (IsV4 y ↔ IsV4 hi) ∧ Covers C y ∧ value hi + 1 = value y

/-- The networks for which a bogon enumeration succeeds. -/
structure BogonsOk (C : List Network) : Prop where
  /-- no network starts at the first or ends at the last address of its family -/
  inner : ∀ n ∈ C, value n.first ≠ familyFirst n.first ∧ value n.last ≠ familyLast n.last
  /-- no IPv6 network is adjacent to the IPv4 range (or starts at ::ff00:0:0) -/
  away : ∀ n ∈ C, value n.first ≠ 0x1000000000000 ∧ value n.first ≠ 0xff0000000000 ∧ value n.last ≠ 0xfffeffffffff
  /-- no gap consists of a single address -/
  wide : ∀ lo hi, MaximalGap C lo hi → value lo ≠ value hi
  /-- no network of a single address follows another network directly -/
  host : ∀ n ∈ C, IsHost n → (∃ m ∈ C, StrictlyInside n m) ∨ ∀ y, value y + 1 = value n.first → ¬ Covers C y

end Loc.Spec
