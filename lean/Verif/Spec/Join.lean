import Verif.Spec.Tree
/-
Specification: neighbouring halves with the same properties are joined.
-/
namespace Loc
namespace Spec

/-- `n1` and `n2` are the lower and the upper half of the block `m`. -/
def AreHalves (n1 n2 m : Network) : Prop :=
  Block m ∧ n1.pfx = m.pfx + 1 ∧ n2.pfx = m.pfx + 1 ∧ Inside n1 m ∧ Inside n2 m ∧ Before n1 n2

/-- Whenever two of the networks are the halves of a block, of one family and with the same properties, that
    block is taken by another of the networks: the full claim. -/
def AllJoined (left : List Network) : Prop :=
  ∀ a b m, a ∈ left → b ∈ left → AreHalves a b m → a.family = b.family → props a = props b →
    ∃ k ∈ left, SameBlock k m

/-- An IPv6 network with an IPv4 address (::ffff:0:0 to ::ffff:ffff:ffff) in it. -/
def HoldsIPv4 (n : Network) : Prop :=
  n.family = .inet6 ∧ ∃ a, Contains n a ∧ 0xffff00000000 ≤ value a ∧ value a ≤ 0xffffffffffff

/-- No network lies inside another one. -/
def Flat (l : List Network) : Prop := ∀ a ∈ l, ∀ b ∈ l, Inside a b → SameBlock a b

end Spec
end Loc
