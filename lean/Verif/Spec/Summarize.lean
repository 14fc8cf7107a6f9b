import Verif.Spec.Network
/-
Specification vocabulary for address ranges.
-/
namespace Loc.Spec

/-- `n` is the smallest CIDR block that contains the addresses `a` and `b`. -/
def SmallestBlock (a b : Addr) (n : Network) : Prop :=
  Block n ∧ Contains n a ∧ Contains n b ∧ ∀ m, Block m → Contains m a → Contains m b → Inside n m

/-- Number of the first address of the upper half of the family of `a`: 128.0.0.0 or 8000::. -/
def familyMiddle (a : Addr) : Nat := if IsV4 a then 0xffff80000000 else 2 ^ 127

/-- `a` lies in the lower half of its family, `b` in the upper half. -/
def AcrossMiddle (a b : Addr) : Prop := value a < familyMiddle a ∧ familyMiddle a ≤ value b

instance (a b : Addr) : Decidable (AcrossMiddle a b) := inferInstanceAs (Decidable (_ ∧ _))

/-- `x` belongs to one of the networks. -/
def Covers (l : List Network) (x : Addr) : Prop := ∃ n ∈ l, Contains n x

/-- The addresses from number `lo` to number `hi` form a CIDR block. -/
def BlockRange (lo hi : Nat) : Prop := ∃ n, Block n ∧ value n.first = lo ∧ value n.last = hi

end Loc.Spec
