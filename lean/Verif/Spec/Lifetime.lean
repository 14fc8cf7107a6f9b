import Verif.Model.Lifetime
import Verif.Spec.Network
/-
What a caller does with network objects and a writer, and which references it holds.
-/
namespace Loc.Spec
open Loc

/-- The network objects, the tree of a writer, and the number of references of the caller to each
    object. -/
structure World where
  heap : Heap
  tree : OTree
  held : Nat → Nat

/-- At first there are no objects, and the tree of the writer is empty. -/
def worldNew : World := ⟨[], .node false none .nil .nil, fun _ => 0⟩

/-- Calls of the caller: `loc_network_new` (the caller gets a reference), `loc_network_ref`,
    `loc_network_unref`, adding a network to the writer, writing the networks. -/
inductive LOp
  | new (n : Network)
  | take (i : Nat)
  | drop (i : Nat)
  | add (i : Nat)
  | write

def lstep (ctz0 : Nat) (w : World) : LOp → LRes World
  | .new n => .ok ⟨(alloc w.heap n).1, w.tree, fun j => if j = (alloc w.heap n).2 then w.held j + 1 else w.held j⟩
  | .take i => do
    let h ← ref w.heap i
    return ⟨h, w.tree, fun j => if j = i then w.held j + 1 else w.held j⟩
  | .drop i => do
    let h ← unref w.heap i
    return ⟨h, w.tree, fun j => if j = i then w.held j - 1 else w.held j⟩
  | .add i => do
    let (_, c) ← oAdd ⟨w.heap, w.tree, []⟩ i
    return ⟨c.heap, c.tree, w.held⟩
  | .write => do
    let (h, t) ← oWriteNetworks ctz0 w.heap w.tree
    return ⟨h, t, w.held⟩

def lrun (ctz0 : Nat) : World → List LOp → LRes World
  | w, [] => .ok w
  | w, op :: ops => do
    let w ← lstep ctz0 w op
    lrun ctz0 w ops

/-- Proper conduct: networks are blocks, the caller uses objects only while it holds a reference. -/
def Proper (w : World) : LOp → Prop
  | .new n => Block n
  | .take i => 0 < w.held i
  | .drop i => 0 < w.held i
  | .add i => 0 < w.held i
  | .write => True

/-- The caller holds a reference to every network in the tree when it writes. -/
def KeepsAll (w : World) : LOp → Prop
  | .write => ∀ i ∈ w.tree.ids, 0 < w.held i
  | _ => True

/-- A rule is obeyed throughout a history. -/
def Obeys (ctz0 : Nat) (rule : World → LOp → Prop) : World → List LOp → Prop
  | _, [] => True
  | w, op :: ops => rule w op ∧ match lstep ctz0 w op with
    | .ok w' => Obeys ctz0 rule w' ops
    | .error _ => True

/-- All references are accounted for: those of the tree and those of the caller. -/
def Accounted (w : World) : Prop :=
  ∀ i n k, w.heap[i]? = some (n, k) → k = w.tree.ids.count i + w.held i

end Loc.Spec
