import Verif.Model.NetworkList
/-
Model of `src/network-tree.c`: the binary trie of the writer.
-/
namespace Loc

/-- `struct loc_network_tree_node`, network-tree.c:33-44 (`nil` is the `NULL` pointer).  Reference
    counts and `ctx` are not modelled.  Nodes are never shared, so a pointer to a node is a path
    from the root. -/
inductive Tree
  | nil
  | node (deleted : Bool) (net : Option Network) (zero one : Tree)
  deriving DecidableEq, Repr

/-- `loc_network_tree_node_new`, network-tree.c:272-285 -/
def Tree.fresh : Tree := .node false none .nil .nil

/-- `loc_network_tree_new`, network-tree.c:46-64 -/
def treeNew : Tree := Tree.fresh

/-- `loc_network_tree_get_node`, network-tree.c:70-100: what the child pointer points to
    afterwards: deleted nodes are undeleted, missing ones are created. -/
def getNode : Tree → Tree
  | .nil => Tree.fresh
  | .node true net z o => .node false net z o
  | .node false net z o => .node false net z o

/-- `loc_network_tree_get_path`, network-tree.c:102-111, followed by the operation `f` on the node
    that was reached (`f` returns the modified node).  Dereferencing `NULL` is `Fault.oob`. -/
def atPath {α : Type} (f : Tree → α × Tree) : Tree → List Bool → Res (α × Tree)
  | .nil, _ => .error .oob
  | .node d net z o, [] => .ok (f (.node d net z o))
  | .node d net z o, false :: bs =>
    match atPath f (getNode z) bs with
    | .error e => .error e
    | .ok (a, z') => .ok (a, .node d net z' o)
  | .node d net z o, true :: bs =>
    match atPath f (getNode o) bs with
    | .error e => .error e
    | .ok (a, o') => .ok (a, .node d net z o')

/-- The bits the loop of `loc_network_tree_get_path` (network-tree.c:105-108) reads: bits
    `0 .. prefix - 1` of the first address. -/
def netBits (n : Network) : List Bool := (List.range n.pfx).map (getBit n.first)

/-- Lines network-tree.c:211-219: occupy a node. -/
def setNode (n : Network) : Tree → Nat × Tree
  | .nil => (EBUSY, .nil)    -- not reached, `atPath` stops at `NULL`
  | .node d (some m) z o => (EBUSY, .node d (some m) z o)
  | .node d none z o => (0, .node d (some n) z o)

/-- `loc_network_tree_add_network`, network-tree.c:199-222: error number (0 or `EBUSY`) and tree. -/
def treeAdd (t : Tree) (n : Network) : Res (Nat × Tree) := atPath (setNode n) t (netBits n)

/-- Lines network-tree.c:239-247: drop the network of a node, mark leaves as deleted. -/
def clearNode : Tree → Unit × Tree
  | .nil => ((), .nil)       -- not reached
  | .node _ _ .nil .nil => ((), .node true none .nil .nil)
  | .node d _ z o => ((), .node d none z o)

/-- `loc_network_tree_delete_network`, network-tree.c:224-250 -/
def treeDelete (t : Tree) (n : Network) : Res Tree :=
  match atPath clearNode t (netBits n) with
  | .error e => .error e
  | .ok (_, t) => .ok t

/-- The node a path leads to. -/
def Tree.sub : Tree → List Bool → Tree
  | t, [] => t
  | .nil, _ :: _ => .nil
  | .node _ _ z o, b :: bs => (if b then o else z).sub bs

def Tree.isNil : Tree → Bool
  | .nil => true
  | .node .. => false

/-- `__loc_network_tree_walk`, network-tree.c:113-160.  `tree s` is the tree in state `s`; the
    callback may modify it.  `w` is the path to the current node; the node and its child pointers
    are re-read from the current state, as in C.  `fuel` bounds the recursion depth. -/
def treeWalk {S : Type} (tree : S → Tree) (filter : Network → Bool) (callback : Network → S → Res S) :
    Nat → List Bool → S → Res S
  | 0, _, _ => .error .diverge
  | fuel + 1, w, s =>
    match (tree s).sub w with
    | .nil => .error .oob
    | .node true _ _ _ => .ok s
    | .node false net _ _ =>
      match (match net with
        | none => .ok (some s)
        | some n =>
          if filter n then .ok none
          else match callback n s with
            | .error e => .error e
            | .ok s => .ok (some s) : Res (Option S)) with
      | .error e => .error e
      | .ok none => .ok s
      | .ok (some s) =>
        match (if (((tree s).sub w).sub [false]).isNil then .ok s
            else treeWalk tree filter callback fuel (w ++ [false]) s) with
        | .error e => .error e
        | .ok s =>
          if (((tree s).sub w).sub [true]).isNil then .ok s
          else treeWalk tree filter callback fuel (w ++ [true]) s

/-- Recursion depth used for walks: more than the number of address bits. -/
def walkFuel : Nat := 130

/-- `__loc_network_tree_count_nodes`, network-tree.c:252-266 -/
def countNodes : Tree → Nat
  | .nil => 0
  | .node true _ _ _ => 0
  | .node false _ z o => 1 + countNodes z + countNodes o

/-- `struct loc_network_tree_dedup_ctx` (network-tree.c:479-484) and
    `struct loc_network_tree_merge_ctx` (network-tree.c:342-346): the tree and the work list; the
    counters are only logged. -/
structure TreeCtx where
  tree : Tree
  list : NetList

/-- The loop of `loc_network_tree_dedup_step`, network-tree.c:492-521, argument `i + 1` meaning
    index `i`, followed by lines 524-526.  (`int i` is assumed not to overflow.) -/
def dedupLoop (network : Network) : Nat → TreeCtx → Res TreeCtx
  | 0, c =>
    match listPush c.list network with
    | .error e => .error e
    | .ok l => .ok { c with list := l }
  | i + 1, c =>
    match c.list[i]? with
    | none => .error .oob
    | some n =>
      if isSubnet n network then
        if propertiesCmp n network = 0 then
          match treeDelete c.tree network with
          | .error e => .error e
          | .ok t => .ok { c with tree := t }
        else
          match listPush c.list network with
          | .error e => .error e
          | .ok l => .ok { c with list := l }
      else
        match listRemove c.list n with
        | .error e => .error e
        | .ok l => dedupLoop network i { c with list := l }

/-- `loc_network_tree_dedup_step`, network-tree.c:486-534 -/
def dedupStep (network : Network) (c : TreeCtx) : Res TreeCtx := dedupLoop network c.list.length c

/-- `loc_network_tree_dedup_one`, network-tree.c:543-568, with the filter of lines 536-541.  Note that
    the walk *skips* the networks (and everything below them) for which the filter is true. -/
def dedupOne (t : Tree) (family : Family) : Res Tree :=
  match treeWalk TreeCtx.tree (fun n => decide (n.family = family)) dedupStep walkFuel [] ⟨t, []⟩ with
  | .error e => .error e
  | .ok c => .ok c.tree

/-- `loc_network_tree_dedup`, network-tree.c:570-585 -/
def treeDedup (t : Tree) : Res Tree :=
  match dedupOne t .inet6 with
  | .error e => .error e
  | .ok t => dedupOne t .inet

/-- How the loop of `loc_network_tree_merge_step` is left. -/
inductive MergeOut
  /-- all list elements were tried without success -/
  | exhausted (c : TreeCtx)
  /-- a merge took place, `break` -/
  | merged (c : TreeCtx)
  /-- the merged network exists already, `goto ERROR` with `r = 0` -/
  | busy (c : TreeCtx)

/-- The loop of `loc_network_tree_merge_step`, network-tree.c:363-432, argument `i + 1` meaning index
    `i`.  `step` is the recursive call. -/
def mergeLoop (ctz0 : Nat) (step : Network → TreeCtx → Res TreeCtx) (network : Network) :
    Nat → TreeCtx → Res MergeOut
  | 0, c => .ok (.exhausted c)
  | i + 1, c =>
    match c.list[i]? with
    | none => .error .oob
    | some n =>
      match mergeNetworks ctz0 n network with
      | .error e => .error e
      | .ok none =>
        match listPush c.list network with
        | .error e => .error e
        | .ok l => mergeLoop ctz0 step network i { c with list := l }
      | .ok (some m) =>
        match treeAdd c.tree m with
        | .error e => .error e
        | .ok (r, t) =>
          if r = EBUSY then .ok (.busy { c with tree := t })
          else do
            let t ← treeDelete t network
            let t ← treeDelete t n
            let l ← listPush c.list m
            let l ← listRemove l n
            let c ← step m ⟨t, l⟩
            return .merged c

/-- `loc_network_tree_merge_step`, network-tree.c:348-446.  After a merge the code reads the prefix of
    `network` again (line 434), although the tree may have dropped the last reference to it:
    `reread` is what it reads then.  In the recursive calls the caller holds a reference, so there
    it is the prefix.  `fuel` bounds the recursion depth. -/
def mergeStep (ctz0 : Nat) (reread : Network → Nat) : Nat → Network → TreeCtx → Res TreeCtx
  | 0, _, _ => .error .diverge
  | fuel + 1, network, c =>
    if c.list.length = 0 then
      match listPush c.list network with
      | .error e => .error e
      | .ok l => .ok { c with list := l }
    else
      match mergeLoop ctz0 (mergeStep ctz0 netPrefix fuel) network c.list.length c with
      | .error e => .error e
      | .ok (.exhausted c) => .ok { c with list := listRemoveLonger c.list (netPrefix network) }
      | .ok (.merged c) => .ok { c with list := listRemoveLonger c.list (reread network) }
      | .ok (.busy c) => .ok c

/-- `loc_network_tree_merge`, network-tree.c:448-473 -/
def treeMerge (ctz0 : Nat) (reread : Network → Nat) (t : Tree) : Res Tree :=
  match treeWalk TreeCtx.tree (fun _ => false) (mergeStep ctz0 reread walkFuel) walkFuel [] ⟨t, []⟩ with
  | .error e => .error e
  | .ok c => .ok c.tree

/-- `loc_network_tree_delete_node`, network-tree.c:587-629: (was the node deleted?, new value of
    the pointer to the node) -/
def pruneNode (isRoot : Bool) : Tree → Bool × Tree
  | .nil => (true, .nil)          -- `r0 = r1 = 1` for missing children
  | .node true _ _ _ => (true, .nil)
  | .node false net z o =>
    let (r0, z') := pruneNode false z
    let (r1, o') := pruneNode false o
    if net.isSome then (false, .node false net z' o')
    else if !r0 || !r1 then (false, .node false net z' o')
    else if isRoot then (false, .node false net z' o')
    else (true, .nil)

/-- `loc_network_tree_delete_nodes`, network-tree.c:631-639 -/
def treePrune (t : Tree) : Tree := (pruneNode true t).2

/-- `loc_network_tree_cleanup`, network-tree.c:641-662 -/
def treeCleanup (ctz0 : Nat) (reread : Network → Nat) (t : Tree) : Res Tree :=
  match treeDedup t with
  | .error e => .error e
  | .ok t =>
    match treeMerge ctz0 reread t with
    | .error e => .error e
    | .ok t => .ok (treePrune t)

end Loc
