import Verif.Spec.Network
import Verif.Model.Tree
/-
Specification vocabulary for collections of networks and for the tree of the writer.
-/
namespace Loc

/-- The networks held by a tree. -/
def Tree.networks : Tree → List Network
  | .nil => []
  | .node _ net z o => net.toList ++ z.networks ++ o.networks

/-- Change the network object `n` held by a tree to `n'` (a setter called on a reference the caller
    kept).  Blocks in a tree are distinct, so the value identifies the object. -/
def Tree.replace (n n' : Network) : Tree → Tree
  | .nil => .nil
  | .node d net z o => .node d (net.map fun k => if k = n then n' else k) (z.replace n n') (o.replace n n')

namespace Spec

/-- `n` is the most specific network of `S` that contains `a`. -/
def MostSpecific (S : Network → Prop) (a : Addr) (n : Network) : Prop :=
  S n ∧ Contains n a ∧ ∀ m, S m → Contains m a → m.pfx ≤ n.pfx

/-- Looking up `a` in the collection `S` yields the properties `p`. -/
def Resolves (S : Network → Prop) (a : Addr) (p : CStr × BitVec 32 × BitVec 32) : Prop :=
  ∃ n, MostSpecific S a n ∧ props n = p

/-- `k` is the closest network of `S` strictly enclosing `n`. -/
def ClosestAround (S : Network → Prop) (n k : Network) : Prop :=
  S k ∧ StrictlyInside n k ∧ ∀ m, S m → StrictlyInside n m → m.pfx ≤ k.pfx

/-- The trees a writer can hold: any history of additions, of property changes of networks held by
    the tree (through the references the caller kept), and of clean-ups (each `loc_writer_write`
    performs one).  `reread` is the prefix read at network-tree.c:434, possibly from freed memory. -/
inductive Reach (ctz0 : Nat) : Tree → Prop
  | new : Reach ctz0 treeNew
  | add {t t' : Tree} {n : Network} {r : Nat} : Reach ctz0 t → Built ctz0 n → treeAdd t n = .ok (r, t') →
      Reach ctz0 t'
  | change {t : Tree} {n n' : Network} : Reach ctz0 t → Built ctz0 n' → SameBlock n' n →
      Reach ctz0 (t.replace n n')
  | cleanup {t t' : Tree} {reread : Network → Nat} : Reach ctz0 t → treeCleanup ctz0 reread t = .ok t' →
      Reach ctz0 t'

end Spec
end Loc
