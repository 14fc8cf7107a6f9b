import Verif.Model.Lifetime
import Verif.Model.Flatten
import Verif.Model.Bogon
/-
Model of the lifetime of network objects while networks are cut up (`src/network.c`) and enumerated
(`src/database.c`): the same control flow as in `Model/NetworkList.lean`, `Model/Enumerator.lean`,
`Model/Flatten.lean` and `Model/Bogon.lean`, with objects of a heap (`Model/Lifetime.lean`) instead of
networks.  Memory never runs out.  Properties of new networks are entered when they are allocated.
-/
namespace Loc

/-- `loc_network_list_push`, network-list.c:211-241 -/
def lPush (h : Heap) (l : List Nat) (i : Nat) : LRes (Heap × List Nat) := do
  let (index, found) ← oFind h l i
  if found then return (h, l)
  else if index < 0 ∨ index > l.length then throw (.other .oob)
  else
    let h ← ref h i
    return (h, l.take index.toNat ++ i :: l.drop index.toNat)

/-- `loc_network_list_contains`, network-list.c:302-308 -/
def lContains (h : Heap) (l : List Nat) (i : Nat) : LRes Bool := do
  let (_, found) ← oFind h l i
  return found

/-- `loc_network_list_merge`, network-list.c:310-321 -/
def lMerge : Heap → List Nat → List Nat → LRes (Heap × List Nat)
  | h, self, [] => return (h, self)
  | h, self, i :: other => do
    let (h, self) ← lPush h self i
    lMerge h self other

/-- What `loc_network_subnets` leaves in `*subnet1` and `*subnet2`, and its return value. -/
inductive LHalves
  | both (s1 s2 : Nat)
  | first (s1 : Nat) (err : Nat)
  | neither (err : Nat)

/-- `loc_network_subnets`, network.c:333-382 -/
def lSubnets (h : Heap) (i : Nat) : LRes (Heap × LHalves) := do
  let n ← deref h i
  if !validPrefix n.first (netPrefix n + 1) then return (h, .neither EINVAL)
  else match newNetwork n.first (netPrefix n + 1) with
    | .error (.err e) => return (h, .neither e)
    | .error x => throw (.other x)
    | .ok s1 =>
      match newNetwork (addrInc s1.last) (netPrefix n + 1) with
      | .error (.err e) => return ((alloc h s1).1, .first (alloc h s1).2 e)
      | .error x => throw (.other x)
      | .ok s2 =>
        let a1 := alloc h (copyProps s1 n)
        let a2 := alloc a1.1 (copyProps s2 n)
        return (a2.1, .both a1.2 a2.2)

/-- `__loc_network_exclude`, network.c:384-438: heap, list and return value (`none`: 0).  The label `ERROR` is reached in
    every case. -/
def lExcludeRec (other : Nat) : Nat → Heap → Nat → List Nat → LRes (Heap × List Nat × Option Nat)
  | 0, _, _, _ => .error (.other .diverge)
  | fuel + 1, h, i, list => do
    let (h, halves) ← lSubnets h i
    match halves with
    | .neither e => return (h, list, some e)
    | .first s1 e => do
      let h ← unref h s1
      return (h, list, some e)
    | .both s1 s2 => do
      let m ← deref h other
      let n1 ← deref h s1
      let n2 ← deref h s2
      let (h, list, r) ← (
        if netCmp m n1 = 0 then do
          let (h, list) ← lPush h list s2
          return (h, list, none)
        else if netCmp m n2 = 0 then do
          let (h, list) ← lPush h list s1
          return (h, list, none)
        else if isSubnet n1 m then do
          let (h, list) ← lPush h list s2
          lExcludeRec other fuel h s1 list
        else if isSubnet n2 m then do
          let (h, list) ← lPush h list s1
          lExcludeRec other fuel h s2 list
        else return (h, list, some 1) : LRes (Heap × List Nat × Option Nat))
      let h ← unref h s1
      let h ← unref h s2
      return (h, list, r)

/-- `__loc_network_exclude_to_list`, network.c:440-459 -/
def lExcludeToList (h : Heap) (self other : Nat) (list : List Nat) : LRes (Heap × List Nat × Option Nat) := do
  let n ← deref h self
  let m ← deref h other
  if !isSubnet n m then return (h, list, none)
  else if netCmp n m = 0 then return (h, list, none)
  else lExcludeRec other excludeFuel h self list

/-- `loc_network_exclude`, network.c:461-485; `none`: `NULL` -/
def lExclude (h : Heap) (self other : Nat) : LRes (Heap × Option (List Nat)) := do
  let (h, list, r) ← lExcludeToList h self other []
  match r with
  | some _ =>
    let h ← unrefAll h list
    return (h, none)
  | none => return (h, some list)

/-- First loop of `loc_network_exclude_list`, network.c:499-515; `none`: `NULL` is returned. -/
def lCollectExcluded (i : Nat) : Heap → List Nat → List Nat → LRes (Heap × Option (List Nat))
  | h, toCheck, [] => return (h, some toCheck)
  | h, toCheck, s :: rest => do
    let h ← ref h s
    if ← lContains h toCheck s then
      let h ← unref h s
      lCollectExcluded i h toCheck rest
    else
      let (h, toCheck, r) ← lExcludeToList h i s toCheck
      match r with
      | some _ =>
        let h ← unrefAll h toCheck
        let h ← unref h s
        return (h, none)
      | none =>
        let h ← unref h s
        lCollectExcluded i h toCheck rest

/-- Inner loop of `loc_network_exclude_list`, network.c:537-571: heap, `to_check`, `passed` and `smallest_subnet`; the last
    argument holds the elements of the list from index `i` on. -/
def lScan (x : Nat) : Heap → List Nat → Nat → Nat → List Nat → LRes (Heap × List Nat × Bool × Nat)
  | h, toCheck, _, smallest, [] => return (h, toCheck, true, smallest)
  | h, toCheck, i, smallest, s :: rest => do
    let h ← ref h s
    let n ← deref h s
    let m ← deref h x
    if isSubnet n m then
      let h ← unref h s
      return (h, toCheck, false, smallest)
    else if overlaps n m then
      let (h, toCheck, _) ← lExcludeToList h x s toCheck
      let h ← unref h s
      return (h, toCheck, false, smallest)
    else if netCmp n m > 0 then
      let h ← unref h s
      return (h, toCheck, true, smallest)
    else if netCmp n m < 0 then
      let h ← unref h s
      lScan x h toCheck (i + 1) i rest
    else
      let h ← unref h s
      lScan x h toCheck (i + 1) smallest rest

/-- `while` loop of `loc_network_exclude_list`, network.c:525-578 -/
def lExcludeListLoop (list : List Nat) : Nat → Heap → List Nat → List Nat → Nat → LRes (Heap × List Nat)
  | 0, _, _, _, _ => .error (.other .diverge)
  | _ + 1, h, [], subnets, _ => return (h, subnets)
  | fuel + 1, h, x :: toCheck, subnets, smallest => do
    if ← lContains h list x then
      let h ← unref h x
      lExcludeListLoop list fuel h toCheck subnets smallest
    else
      let (h, toCheck, passed, smallest) ← lScan x h toCheck smallest smallest (list.drop smallest)
      if passed then
        let (h, subnets) ← lPush h subnets x
        let h ← unref h x
        lExcludeListLoop list fuel h toCheck subnets smallest
      else
        let h ← unref h x
        lExcludeListLoop list fuel h toCheck subnets smallest

/-- `loc_network_exclude_list`, network.c:487-583; `none`: `NULL` -/
def lExcludeList (fuel : Nat) (h : Heap) (i : Nat) (list : List Nat) : LRes (Heap × Option (List Nat)) := do
  let (h, c) ← lCollectExcluded i h [] list
  match c with
  | none => return (h, none)
  | some toCheck =>
    let (h, subnets) ← lExcludeListLoop list fuel h toCheck [] 0
    return (h, some subnets)

/-! ### Enumerations

The state of an enumerator is a `NetEnum` whose list `stack` is not used, and the list of objects on its stack. -/

/-- How a call ends: `*network` is set, `NULL`, or there is an error, after which `*network` may be set as well. -/
inductive LNext
  | item (i : Nat)
  | done
  | failed (left : Option Nat)
  deriving DecidableEq, Repr

/-- The object in `*network` after a call. -/
def LNext.given : LNext → List Nat
  | .item i => [i]
  | .done => []
  | .failed left => left.toList

/-- `loc_network_new_from_database_v1`, network.c:662-702: if the country code cannot be set, the object remains. -/
def lFetchNetwork (db : Db) (h : Heap) (address : Addr) (p pos : Nat) : LRes (Heap × LNext) := do
  match ← liftRes (fetchNetwork db address p pos) with
  | .soft => return (h, .failed none)
  | .hard =>
    match newNetwork address (if isV4Mapped address then (p + 2 ^ 32 - 96) % 2 ^ 32 else p) with
    | .error x => throw (.other x)
    | .ok n => return ((alloc h n).1, .failed (some (alloc h n).2))
  | .got n => return ((alloc h n).1, .item (alloc h n).2)

/-- The first loop of `__loc_database_enumerator_next_network`, database.c:1334-1348 -/
def lPopMatching (f : Filter) (filter : Bool) : Heap → List Nat → LRes (Heap × Option Nat × List Nat)
  | h, [] => return (h, none, [])
  | h, i :: l => do
    let n ← deref h i
    if !filter || matchNetwork f n then return (h, some i, l)
    else
      let h ← unref h i
      lPopMatching f filter h l

/-- The second loop of `__loc_database_enumerator_next_network`, database.c:1353-1418 -/
def lDfsLoop (db : Db) (filter : Bool) : Nat → Heap → NetEnum → LRes (LNext × Heap × NetEnum)
  | 0, _, _ => .error (.other .diverge)
  | fuel + 1, h, e =>
    match e.nodes with
    | [] => .ok (.done, h, e)
    | node :: rest =>
      if node.offset ≥ db.nodeCount then .error (.other .oob)
      else if node.offset ∈ e.visited then lDfsLoop db filter fuel h { e with nodes := rest }
      else if node.depth - 1 ≥ 128 then .error (.other .oob)
      else
        let e := { e with address := setBit e.address (node.depth - 1) node.i, visited := node.offset :: e.visited }
        match fetchNode db node.offset with
        | .error x => .error (.other x)
        | .ok none => .ok (.failed none, h, e)
        | .ok (some r) =>
          match pushNode db e.nodes r.one true (node.depth + 1) with
          | .error x => .error (.other x)
          | .ok none => .ok (.failed none, h, e)
          | .ok (some nodes) =>
            let e := { e with nodes := nodes }
            match pushNode db e.nodes r.zero false (node.depth + 1) with
            | .error x => .error (.other x)
            | .ok none => .ok (.failed none, h, e)
            | .ok (some nodes) =>
              let e := { e with nodes := nodes }
              if isLeaf r then
                match lFetchNetwork db h e.address node.depth r.net with
                | .error x => .error x
                | .ok (h, .done) => .ok (.done, h, e)      -- does not happen
                | .ok (h, .failed left) => .ok (.failed left, h, e)
                | .ok (h, .item i) =>
                  match deref h i with
                  | .error x => .error x
                  | .ok n =>
                    if !filter || matchNetwork e.filter n then .ok (.item i, h, e)
                    else
                      match unref h i with
                      | .error x => .error x
                      | .ok h => lDfsLoop db filter fuel h e
              else lDfsLoop db filter fuel h e

/-- `__loc_database_enumerator_next_network`, database.c:1331-1422 -/
def lNextRaw (db : Db) (filter : Bool) (h : Heap) (e : NetEnum) (stack : List Nat) : LRes (LNext × Heap × NetEnum × List Nat) := do
  let (h, x, stack) ← lPopMatching e.filter filter h stack
  match x with
  | some i => return (.item i, h, e, stack)
  | none =>
    let (r, h, e) ← lDfsLoop db filter (dfsFuel db e) h e
    return (r, h, e, stack)

/-- database.c:1441-1481: heap, success, enumerator, stack and the list of subnets (cleared after an error) -/
def lCollectSubnets (db : Db) (i : Nat) : Nat → Heap → NetEnum → List Nat → List Nat →
    LRes (Heap × Bool × NetEnum × List Nat × List Nat)
  | 0, _, _, _, _ => .error (.other .diverge)
  | fuel + 1, h, e, stack, subnets => do
    let (r, h, e, stack) ← lNextRaw db false h e stack
    match r with
    | .failed none => throw (.other .oob)
    | .failed (some j) =>
      let h ← unref h j
      let h ← unrefAll h subnets
      return (h, false, e, stack, [])
    | .done => return (h, true, e, stack, subnets)
    | .item j =>
      let n ← deref h i
      let m ← deref h j
      if isSubnet n m then
        let (h, subnets) ← lPush h subnets j
        let h ← unref h j
        lCollectSubnets db i fuel h e stack subnets
      else
        let (h, stack) ← lPush h stack j
        let h ← unref h j
        return (h, true, e, stack, subnets)

/-- `__loc_database_enumerator_next_network_flattened`, database.c:1421-1526 -/
def lNextFlat (db : Db) : Nat → Heap → NetEnum → List Nat → LRes (LNext × Heap × NetEnum × List Nat)
  | 0, _, _, _ => .error (.other .diverge)
  | fuel + 1, h, e, stack => do
    let (r, h, e, stack) ← lNextRaw db true h e stack
    match r with
    | .failed left => return (.failed left, h, e, stack)
    | .done => return (.done, h, e, stack)
    | .item i =>
      let (h, ok, e, stack, subnets) ← lCollectSubnets db i (fuel + 1) h e stack []
      if !ok then return (.failed (some i), h, e, stack)
      else if subnets.isEmpty then return (.item i, h, e, stack)
      else
        let (h, excluded) ← lExcludeList (128 * subnets.length + 1) h i subnets
        match excluded with
        | none =>
          let h ← unrefAll h subnets
          return (.failed (some i), h, e, stack)
        | some excluded =>
          let (h, stack) ← lMerge h stack subnets
          let (h, stack) ← lMerge h stack excluded
          let h ← unrefAll h subnets
          let h ← unrefAll h excluded
          let h ← unref h i
          lNextFlat db fuel h e stack

/-- Loop of `loc_network_list_summarize`, network-list.c:355-392: heap, list and return value (`none`: 0).  The reference
    that `loc_network_new` returns is not dropped. -/
def lSummarizeLoop (last : Addr) : Nat → Addr → Heap → List Nat → LRes (Heap × List Nat × Option Nat)
  | 0, _, _, _ => .error (.other .diverge)
  | fuel + 1, start, h, list =>
    if addrCmp start last ≤ 0 then
      match commonBits start last with
      | .error (.err e) => return (h, list, some e)
      | .error x => .error (.other x)
      | .ok bits =>
        match newNetwork start (if bits = 0 then 1 else bits) with
        | .error (.err e) => return (h, list, some e)
        | .error x => .error (.other x)
        | .ok network => do
          let (h, list) ← lPush (alloc h network).1 list (alloc h network).2
          if allOnes network.last then return (h, list, none)
          else lSummarizeLoop last fuel (addrInc network.last) h list
    else return (h, list, none)

/-- `loc_network_list_summarize`, network-list.c:323-395 -/
def lSummarize (fuel : Nat) (first last : Addr) (h : Heap) (list : List Nat) : LRes (Heap × List Nat × Option Nat) :=
  if addrFamily first ≠ addrFamily last then return (h, list, some EINVAL)
  else if addrCmp first last ≥ 0 then return (h, list, some EINVAL)
  else lSummarizeLoop last fuel first h list

/-- database.c:1604-1612, 1633-1639, 1649-1655 -/
def lPushGap (start last : Addr) (h : Heap) (stack : List Nat) : LRes (Heap × List Nat × Option Nat) :=
  if addrCmp start last ≤ 0 then lSummarize 128 start last h stack else return (h, stack, none)

/-- database.c:1537 and 1662: the first object of the stack -/
def lPop (h : Heap) (e : NetEnum) : List Nat → LNext × Heap × NetEnum × List Nat
  | [] => (.done, h, e, [])
  | i :: l => (.item i, h, e, l)

/-- `FINISH`, database.c:1628-1664 -/
def lFinishBogons (h : Heap) (e : NetEnum) (stack : List Nat) : LRes (LNext × Heap × NetEnum × List Nat) := do
  let (h, stack, r) ← (if !allZeroes e.gap6 then lPushGap e.gap6 (addrResetLast .inet6) h stack else return (h, stack, none) : LRes (Heap × List Nat × Option Nat))
  match r with
  | some _ => return (.failed none, h, e, stack)
  | none =>
    let e := { e with gap6 := if !allZeroes e.gap6 then addrReset .inet6 else e.gap6 }
    let (h, stack, r) ← (if !allZeroes e.gap4 then lPushGap e.gap4 (addrResetLast .inet) h stack else return (h, stack, none) : LRes (Heap × List Nat × Option Nat))
    match r with
    | some _ => return (.failed none, h, e, stack)
    | none => return lPop h { e with gap4 := if !allZeroes e.gap4 then addrReset .inet else e.gap4 } stack

/-- The loop of `__loc_database_enumerator_next_bogon`, database.c:1554-1624.  If reading fails, the variable `network` is not
    released. -/
def lBogonLoop (db : Db) : Nat → Heap → NetEnum → List Nat → LRes (LNext × Heap × NetEnum × List Nat)
  | 0, _, _, _ => .error (.other .diverge)
  | fuel + 1, h, e, stack => do
    let (r, h, e, stack) ← lNextRaw db true h e stack
    match r with
    | .failed _ => return (.failed none, h, e, stack)
    | .done => lFinishBogons h e stack
    | .item i =>
      let n ← deref h i
      if countryCode n = [] then
        let h ← unref h i
        lBogonLoop db fuel h e stack
      else if addrCmp (gapOf e.gap6 e.gap4 n.family) n.last ≥ 0 then
        let h ← unref h i
        lBogonLoop db fuel h e stack
      else
        let (h, stack, r) ← lPushGap (gapOf e.gap6 e.gap4 n.family) (addrDec n.first) h stack
        match r with
        | some _ =>
          let h ← unref h i
          return (.failed none, h, e, stack)
        | none =>
          let e := { e with
            gap6 := if n.family = Family.inet6 then addrInc n.last else e.gap6
            gap4 := if n.family = Family.inet then addrInc n.last else e.gap4 }
          let h ← unref h i
          match stack with
          | [] => lBogonLoop db fuel h e []
          | b :: l => return (.item b, h, e, l)

/-- `__loc_database_enumerator_next_bogon`, database.c:1531-1665 -/
def lNextBogon (db : Db) (fuel : Nat) (h : Heap) (e : NetEnum) (stack : List Nat) : LRes (LNext × Heap × NetEnum × List Nat) :=
  match stack with
  | b :: l => return (.item b, h, e, l)
  | [] => lBogonLoop db fuel h e []

/-- What an enumerator of networks was created for, database.c:110-123 and 1095-1166. -/
inductive NetMode
  | plain
  | flat
  | bogons
  deriving DecidableEq, Repr

/-- `loc_database_enumerator_next_network`, database.c:1667-1683.  `fuel` bounds loops. -/
def lNext (db : Db) (mode : NetMode) (fuel : Nat) (h : Heap) (e : NetEnum) (stack : List Nat) : LRes (LNext × Heap × NetEnum × List Nat) :=
  match mode with
  | .plain => lNextRaw db true h e stack
  | .flat => lNextFlat db fuel h e stack
  | .bogons => lNextBogon db fuel h e stack

/-- `loc_database_enumerator_free`, database.c:1066-1094, as far as network objects are concerned; the list of subnets is
    empty between calls. -/
def lEnumFree (h : Heap) (stack : List Nat) : LRes Heap := unrefAll h stack

end Loc
