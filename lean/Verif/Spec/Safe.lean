import Verif.Spec.File
import Verif.Spec.Address
/-
Specification vocabulary for reading arbitrary files.
-/
namespace Loc.Spec

/-- The strings of a file: the pool (offset at 60, length at 64) lies in the file, and from every place in it on there is
    a NUL byte somewhere in the file. -/
def StringsEnd (f : Bytes) : Prop :=
  ∀ off < word f 64, ∃ i, word f 60 + off ≤ i ∧ f[i]? = some 0

/-- Node `i` of the tree section (length at 48) is `k` steps below the first node. -/
inductive Depth (f : Bytes) : Nat → Nat → Prop
  | root : Depth f 0 0
  | step {k i j : Nat} : Depth f k i → (j = nodeWord f i 0 ∨ j = nodeWord f i 1) → 0 < j → j < word f 48 / 12 →
      Depth f (k + 1) j

/-- There is a node, and no node is 128 steps below the first. -/
def Shallow (f : Bytes) : Prop := 12 ≤ word f 48 ∧ ∀ k i, Depth f k i → k < 128

/-- Node `i` (its three words) lies in the file; the offset of the tree section is stored at 44. -/
def NodeInFile (f : Bytes) (i : Nat) : Prop := word f 44 + 12 * i + 12 ≤ f.length

/-- Following the bits of an address from the first node on leads to node `i` after `k` steps. -/
inductive Along (f : Bytes) (a : Addr) : Nat → Nat → Prop
  | root : NodeInFile f 0 → Along f a 0 0
  | step {k i j : Nat} : Along f a k i → j = nodeWord f i (if bit a k then 1 else 0) → 0 < j → j < word f 48 / 12 → NodeInFile f j →
      Along f a (k + 1) j

end Loc.Spec
