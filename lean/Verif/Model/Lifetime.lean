import Verif.Model.Tree
/-
Model of the lifetime of network objects while a database is written: reference counts
(`src/network.c`), the references held by lists (`src/network-list.c`), by the nodes of the tree
(`src/network-tree.c`) and by the queue of `src/writer.c`.  The control flow is that of
`Model/Tree.lean`; networks are named by their address (a number) instead of their content.
Reference counts of tree nodes are not modelled: nodes are released only while pruning.
-/
namespace Loc

/-- What can go wrong here: an object is accessed after it was released, or something else. -/
inductive LFault
  | freed
  | other (f : Fault)
  deriving DecidableEq, Repr

abbrev LRes := Except LFault

/-- Faults of functions that do not know about lifetimes. -/
def liftRes {α : Type} : Res α → LRes α
  | .ok a => .ok a
  | .error e => .error (.other e)

/-- All network objects that were ever allocated: content and `refcount` (network.c:36-50); 0 means
    that the object was released. -/
abbrev Heap := List (Network × Nat)

/-- The content of an object that has not been released. -/
def deref (h : Heap) (i : Nat) : LRes Network :=
  match h[i]? with
  | some (n, k) => if k = 0 then .error .freed else .ok n
  | none => .error .freed

/-- `loc_network_ref`, network.c:108-112 -/
def ref (h : Heap) (i : Nat) : LRes Heap :=
  match h[i]? with
  | some (n, k) => if k = 0 then .error .freed else .ok (h.set i (n, k + 1))
  | none => .error .freed

/-- `loc_network_unref`, network.c:121-127 -/
def unref (h : Heap) (i : Nat) : LRes Heap :=
  match h[i]? with
  | some (n, k) => if k = 0 then .error .freed else .ok (h.set i (n, k - 1))
  | none => .error .freed

/-- `loc_network_new`, network.c:52-90 (also called by `loc_network_merge`, network.c:585-647): a new object with one
    reference. -/
def alloc (h : Heap) (n : Network) : Heap × Nat := (h ++ [(n, 1)], h.length)

/-- The tree of `Model/Tree.lean` with objects instead of networks. -/
inductive OTree
  | nil
  | node (deleted : Bool) (net : Option Nat) (zero one : OTree)
  deriving DecidableEq, Repr

/-- `loc_network_tree_get_node`, network-tree.c:70-100 -/
def oGetNode : OTree → OTree
  | .nil => .node false none .nil .nil
  | .node true net z o => .node false net z o
  | .node false net z o => .node false net z o

/-- `loc_network_tree_get_path`, network-tree.c:102-111, followed by `f` -/
def oAtPath {α : Type} (f : OTree → α × OTree) : OTree → List Bool → Res (α × OTree)
  | .nil, _ => .error .oob
  | .node d net z o, [] => .ok (f (.node d net z o))
  | .node d net z o, false :: bs =>
    match oAtPath f (oGetNode z) bs with
    | .error e => .error e
    | .ok (a, z') => .ok (a, .node d net z' o)
  | .node d net z o, true :: bs =>
    match oAtPath f (oGetNode o) bs with
    | .error e => .error e
    | .ok (a, o') => .ok (a, .node d net z o')

/-- Lines network-tree.c:211-219; the result tells whether the node was free. -/
def oSetNode (i : Nat) : OTree → Bool × OTree
  | .nil => (false, .nil)
  | .node d (some j) z o => (false, .node d (some j) z o)
  | .node d none z o => (true, .node d (some i) z o)

/-- Lines network-tree.c:239-247; the result is the object whose reference is dropped. -/
def oClearNode : OTree → Option Nat × OTree
  | .nil => (none, .nil)
  | .node _ net .nil .nil => (net, .node true none .nil .nil)
  | .node d net z o => (net, .node d none z o)

/-- Heap, tree and the work list of deduplication and merging. -/
structure LCtx where
  heap : Heap
  tree : OTree
  list : List Nat

/-- `loc_network_tree_add_network`, network-tree.c:199-222: was the node free? -/
def oAdd (c : LCtx) (i : Nat) : LRes (Bool × LCtx) := do
  let n ← deref c.heap i
  let (free, t) ← liftRes (oAtPath (oSetNode i) c.tree (netBits n))
  if free then
    let h ← ref c.heap i
    return (true, { c with heap := h, tree := t })
  else return (false, { c with tree := t })

/-- `loc_network_tree_delete_network`, network-tree.c:224-250 -/
def oDelete (c : LCtx) (i : Nat) : LRes LCtx := do
  let n ← deref c.heap i
  let (old, t) ← liftRes (oAtPath oClearNode c.tree (netBits n))
  match old with
  | some j =>
    let h ← unref c.heap j
    return { c with heap := h, tree := t }
  | none => return { c with tree := t }

/-- `loc_network_list_find`, network-list.c:134-209.  More objects are accessed here than in the code:
    all elements of the list. -/
def oFind (h : Heap) (l : List Nat) (i : Nat) : LRes (Int × Bool) := do
  let n ← deref h i
  let ns ← l.mapM (deref h)
  liftRes (listFind ns n)

/-- `loc_network_list_push`, network-list.c:211-241 -/
def oPush (c : LCtx) (i : Nat) : LRes LCtx := do
  let (index, found) ← oFind c.heap c.list i
  if found then return c
  else if index < 0 ∨ index > c.list.length then throw (.other .oob)
  else
    let h ← ref c.heap i
    return { c with heap := h, list := c.list.take index.toNat ++ i :: c.list.drop index.toNat }

/-- `loc_network_list_remove`, network-list.c:279-300 -/
def oRemove (c : LCtx) (i : Nat) : LRes LCtx := do
  let (index, found) ← oFind c.heap c.list i
  if !found then return c
  else if index < 0 then throw (.other .oob)
  else match c.list[index.toNat]? with
    | none => throw (.other .oob)
    | some j =>
      let h ← unref c.heap j
      return { c with heap := h, list := c.list.eraseIdx index.toNat }

/-- `loc_network_list_remove_with_prefix_smaller_than`, network-list.c:397-426 -/
def oRemoveLonger (p : Nat) : Heap → List Nat → LRes (Heap × List Nat)
  | h, [] => return (h, [])
  | h, j :: l => do
    let n ← deref h j
    if netPrefix n > p then
      let h ← unref h j
      oRemoveLonger p h l
    else
      let (h, l) ← oRemoveLonger p h l
      return (h, j :: l)

/-- Dropping a list of references, as in `loc_network_list_clear`, network-list.c:93-106 -/
def unrefAll : Heap → List Nat → LRes Heap
  | h, [] => return h
  | h, j :: l => do
    let h ← unref h j
    unrefAll h l

/-- The subtree a path leads to. -/
def OTree.sub : OTree → List Bool → OTree
  | t, [] => t
  | .nil, _ :: _ => .nil
  | .node _ _ z o, b :: bs => (if b then o else z).sub bs

def OTree.isNil : OTree → Bool
  | .nil => true
  | .node .. => false

/-- `__loc_network_tree_walk`, network-tree.c:113-160 -/
def oWalk (filter : Nat → LCtx → LRes Bool) (callback : Nat → LCtx → LRes LCtx) : Nat → List Bool → LCtx → LRes LCtx
  | 0, _, _ => .error (.other .diverge)
  | fuel + 1, w, c =>
    match c.tree.sub w with
    | .nil => .error (.other .oob)
    | .node true _ _ _ => return c
    | .node false net _ _ => do
      let next ← (match net with
        | none => return some c
        | some i => do
          if (← filter i c) then return none
          else return some (← callback i c) : LRes (Option LCtx))
      match next with
      | none => return c
      | some c => do
        let c ← (if ((c.tree.sub w).sub [false]).isNil then .ok c else oWalk filter callback fuel (w ++ [false]) c)
        if ((c.tree.sub w).sub [true]).isNil then .ok c else oWalk filter callback fuel (w ++ [true]) c

/-- The loop of `loc_network_tree_dedup_step`, network-tree.c:492-521, and the lines behind it -/
def oDedupLoop (network : Nat) : Nat → LCtx → LRes LCtx
  | 0, c => oPush c network
  | i + 1, c =>
    match c.list[i]? with
    | none => .error (.other .oob)
    | some n => do
      let h ← ref c.heap n
      let x ← deref h n
      let y ← deref h network
      if isSubnet x y then
        if propertiesCmp x y = 0 then
          let c ← oDelete { c with heap := h } network
          let h ← unref c.heap n
          return { c with heap := h }
        else
          let c ← oPush { c with heap := h } network
          let h ← unref c.heap n
          return { c with heap := h }
      else
        let c ← oRemove { c with heap := h } n
        let h ← unref c.heap n
        oDedupLoop network i { c with heap := h }

/-- `loc_network_tree_dedup_one`, network-tree.c:543-568 -/
def oDedupOne (family : Family) (h : Heap) (t : OTree) : LRes (Heap × OTree) := do
  let c ← oWalk (fun i c => return decide ((← deref c.heap i).family = family)) (fun i c => oDedupLoop i c.list.length c) walkFuel [] ⟨h, t, []⟩
  return (← unrefAll c.heap c.list, c.tree)

/-- How the loop of `loc_network_tree_merge_step` is left; `merged` carries the object `n`, which is
    released at the label `ERROR`. -/
inductive LOut
  | exhausted (c : LCtx)
  | merged (n : Nat) (c : LCtx)
  | busy (c : LCtx)

/-- The loop of `loc_network_tree_merge_step`, network-tree.c:363-432 -/
def oMergeLoop (ctz0 : Nat) (step : Nat → LCtx → LRes LCtx) (network : Nat) : Nat → LCtx → LRes LOut
  | 0, c => return .exhausted c
  | i + 1, c =>
    match c.list[i]? with
    | none => .error (.other .oob)
    | some n => do
      let h ← ref c.heap n
      let x ← deref h n
      let y ← deref h network
      match ← liftRes (mergeNetworks ctz0 x y) with
      | none =>
        let c ← oPush { c with heap := h } network
        let h ← unref c.heap n
        oMergeLoop ctz0 step network i { c with heap := h }
      | some mm =>
        let m := (alloc h mm).2
        let (free, c) ← oAdd { c with heap := (alloc h mm).1 } m
        if free then
          let c ← oDelete c network
          let c ← oDelete c n
          let c ← oPush c m
          let c ← oRemove c n
          let c ← step m c
          let h ← unref c.heap m
          return .merged n { c with heap := h }
        else
          let h ← unref c.heap m
          let h ← unref h n
          return .busy { c with heap := h }

/-- `loc_network_tree_merge_step`, network-tree.c:348-446; after a merge `network` is accessed again
    in line 434. -/
def oMergeStep (ctz0 : Nat) : Nat → Nat → LCtx → LRes LCtx
  | 0, _, _ => .error (.other .diverge)
  | fuel + 1, network, c =>
    if c.list.length = 0 then oPush c network
    else do
      match ← oMergeLoop ctz0 (oMergeStep ctz0 fuel) network c.list.length c with
      | .exhausted c =>
        let y ← deref c.heap network
        let (h, l) ← oRemoveLonger (netPrefix y) c.heap c.list
        return { c with heap := h, list := l }
      | .merged n c =>
        let y ← deref c.heap network
        let (h, l) ← oRemoveLonger (netPrefix y) c.heap c.list
        let h ← unref h n
        return { c with heap := h, list := l }
      | .busy c => return c

/-- `loc_network_tree_merge`, network-tree.c:448-473 -/
def oMerge (ctz0 : Nat) (h : Heap) (t : OTree) : LRes (Heap × OTree) := do
  let c ← oWalk (fun _ _ => return false) (oMergeStep ctz0 walkFuel) walkFuel [] ⟨h, t, []⟩
  return (← unrefAll c.heap c.list, c.tree)

/-- The objects of a tree. -/
def OTree.ids : OTree → List Nat
  | .nil => []
  | .node _ net z o => net.toList ++ z.ids ++ o.ids

/-- `loc_network_tree_delete_node`, network-tree.c:587-629, with `loc_network_tree_node_free`
    (network-tree.c:295-309): was the node deleted, the new pointer, and the objects whose reference is
    dropped. -/
def oPrune (isRoot : Bool) : OTree → Bool × OTree × List Nat
  | .nil => (true, .nil, [])
  | .node true net z o => (true, .nil, (OTree.node true net z o).ids)
  | .node false net z o =>
    let (r0, z', d0) := oPrune false z
    let (r1, o', d1) := oPrune false o
    if net.isSome then (false, .node false net z' o', d0 ++ d1)
    else if !r0 || !r1 then (false, .node false net z' o', d0 ++ d1)
    else if isRoot then (false, .node false net z' o', d0 ++ d1)
    else (true, .nil, d0 ++ d1 ++ (OTree.node false net z' o').ids)

/-- `loc_network_tree_cleanup`, network-tree.c:641-662 -/
def oCleanup (ctz0 : Nat) (h : Heap) (t : OTree) : LRes (Heap × OTree) := do
  let (h, t) ← oDedupOne .inet6 h t
  let (h, t) ← oDedupOne .inet h t
  let (h, t) ← oMerge ctz0 h t
  return (← unrefAll h (oPrune true t).2.2, (oPrune true t).2.1)

/-- The queue of networks in `loc_database_write_networks`, writer.c:461-477: every network of the tree
    is referenced twice and released once.  The order of the queue does not matter here. -/
def oEnqueue : Heap → List Nat → LRes Heap
  | h, [] => return h
  | h, i :: l => do
    let h ← ref h i
    let h ← ref h i
    let h ← unref h i
    oEnqueue h l

/-- writer.c:502-515: every network in the queue is read and released. -/
def oDequeue : Heap → List Nat → LRes Heap
  | h, [] => return h
  | h, i :: l => do
    let _ ← deref h i
    let h ← unref h i
    oDequeue h l

/-- `loc_database_write_networks`, writer.c:391-522, as far as network objects are concerned -/
def oWriteNetworks (ctz0 : Nat) (h : Heap) (t : OTree) : LRes (Heap × OTree) := do
  let (h, t) ← oCleanup ctz0 h t
  let h ← oEnqueue h t.ids
  let h ← oDequeue h t.ids
  return (h, t)

end Loc
