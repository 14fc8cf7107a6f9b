import Verif.Model.Database
import Verif.Model.NetworkList
/-
Model of the enumerators of `src/database.c` (lines 98-143 and 1064-1709).
-/
namespace Loc

/-- How a call of a `next` function ends: an object, `NULL` with return value 0, an error with `NULL`, or an error after
    which the pointer is not `NULL` (to an object that nobody releases). -/
inductive Next (α : Type)
  | item (x : α)
  | done
  | failed
  | failedHeld
  deriving DecidableEq, Repr

/-- A caller that calls `next` until it returns `NULL` (or an error): the objects, whether all calls
    succeeded, and the state of the enumerator afterwards.  `fuel` bounds the number of calls. -/
def drain {σ α : Type} (next : σ → Res (Next α × σ)) : Nat → σ → Res (List α × Bool × σ)
  | 0, _ => .error .diverge
  | fuel + 1, s =>
    match next s with
    | .error e => .error e
    | .ok (.done, s) => .ok ([], true, s)
    | .ok (.failed, s) => .ok ([], false, s)
    | .ok (.failedHeld, s) => .ok ([], false, s)
    | .ok (.item x, s) =>
      match drain next fuel s with
      | .error e => .error e
      | .ok (l, b, s) => .ok (x :: l, b, s)

/-! ### ASes -/

/-- `tolower` in the C locale -/
def toLower (c : Byte) : Byte := if 65 ≤ c.toNat ∧ c.toNat ≤ 90 then c + 32 else c

/-- `needle` is a prefix of `hay`, ignoring case -/
def prefixCI : CStr → CStr → Bool
  | [], _ => true
  | _ :: _, [] => false
  | a :: needle, b :: hay => toLower a == toLower b && prefixCI needle hay

/-- `strcasestr(hay, needle) != NULL` (libc) -/
def strcasestr : CStr → CStr → Bool
  | [], needle => prefixCI needle []
  | b :: hay, needle => prefixCI needle (b :: hay) || strcasestr hay needle

/-- `loc_as_match_string`, as.c:143-157 -/
def asMatchString (a : AS) (string : Option CStr) : Bool :=
  match string with
  | none => true
  | some s =>
    match a.name with
    | none => true
    | some name => strcasestr name s

/-- `loc_database_enumerator_set_string`, database.c:1161-1169 -/
def setString (s : CStr) : Option CStr := some (s.map toLower)

/-- The loop of `loc_database_enumerator_next_as`, database.c:1232-1251; the first argument is the number of
    ASes from `index` on.  The state is `as_index`. -/
def nextAsLoop (db : Db) (string : Option CStr) : Nat → Nat → Res (Next AS × Nat)
  | 0, _ => .ok (.done, 0)
  | rem + 1, index =>
    match fetchAs db index with
    | .error e => .error e
    | .ok none => .ok (.failed, index + 1)
    | .ok (some a) =>
      if asMatchString a string then .ok (.item a, index + 1)
      else nextAsLoop db string rem (index + 1)

/-- `loc_database_enumerator_next_as`, database.c:1221-1255, in AS mode -/
def nextAs (db : Db) (string : Option CStr) (index : Nat) : Res (Next AS × Nat) :=
  nextAsLoop db string (db.asCount - index) index

/-! ### Countries -/

/-- `loc_database_enumerator_next_country`, database.c:1685-1709, in country mode.  The state is
    `country_index`. -/
def nextCountry (db : Db) (index : Nat) : Res (Next Country × Nat) :=
  if index < db.countryCount then
    match fetchCountry db index with
    | .error e => .error e
    | .ok none => .ok (.failed, index + 1)
    | .ok (some c) => .ok (.item c, index + 1)
  else .ok (.done, 0)

/-! ### Networks -/

/-- `MAX_STACK_DEPTH`, database.c:98 -/
def maxStackDepth : Nat := 256

/-- `struct loc_node_stack`, database.c:100-104 -/
structure StackNode where
  offset : Nat
  i : Bool
  depth : Nat
  deriving DecidableEq, Repr

/-- The filters of an enumerator, database.c:112-117.  `family = 0`: none set. -/
structure Filter where
  family : Nat
  countries : Option (List Country)
  asns : Option (List AS)
  flags : BitVec 32

/-- `struct loc_database_enumerator`, database.c:106-143, in network and bogon mode.  `nodes` are the
    entries 1 .. `network_stack_depth` of `network_stack`, the topmost first; `visited` are the
    offsets whose counter is not zero. -/
structure NetEnum where
  filter : Filter
  address : Addr
  nodes : List StackNode
  visited : List Nat
  stack : NetList
  gap6 : Addr
  gap4 : Addr

/-- `loc_database_enumerator_new`, database.c:1096-1140: entry 1 of the zeroed stack is the root. -/
def enumNew (f : Filter) : NetEnum :=
  ⟨f, Vector.replicate 16 0, [⟨0, false, 0⟩], [], [], addrReset .inet6, addrReset .inet⟩

/-- `AF_INET`, `AF_INET6` on Linux -/
def familyNumber : Family → Nat
  | .inet => 2
  | .inet6 => 10

/-- `loc_country_list_contains_code`, country-list.c:153-170 -/
def countryListContainsCode (l : List Country) (code : CStr) : Bool :=
  match countryNew (some code) with
  | .error _ => false
  | .ok c => countryListContains l c

/-- `loc_database_enumerator_match_network`, database.c:1289-1329 -/
def matchNetwork (f : Filter) (n : Network) : Bool :=
  if f.family ≠ 0 ∧ familyNumber n.family ≠ f.family then false
  else if f.countries.isNone ∧ f.asns.isNone ∧ f.flags = 0 then true
  else if (match f.countries with
      | some l => !l.isEmpty && countryListContainsCode l (countryCode n)
      | none => false) then true
  else if (match f.asns with
      | some l => !l.isEmpty && asListContains l n.asn
      | none => false) then true
  else if f.flags ≠ 0 ∧ hasFlag n f.flags ≠ 0 then true
  else false

/-- `loc_database_enumerator_stack_push_node`, database.c:1257-1287; `none`: return value 1.  The array has
    the entries 0 .. 255, and entry `network_stack_depth + 1` is written. -/
def pushNode (db : Db) (nodes : List StackNode) (offset : Nat) (i : Bool) (depth : Nat) : Res (Option (List StackNode)) :=
  if offset = 0 then .ok (some nodes)
  else if nodes.length ≥ maxStackDepth then .ok none
  else if offset ≥ db.nodeCount then .ok none
  else if nodes.length + 1 ≥ maxStackDepth then .error .oob
  else .ok (some (⟨offset, i, depth⟩ :: nodes))

/-- The first loop of `__loc_database_enumerator_next_network`, database.c:1334-1348: take networks from the
    list until one matches. -/
def popMatching (f : Filter) (filter : Bool) : NetList → Option Network × NetList
  | [] => (none, [])
  | n :: l => if !filter || matchNetwork f n then (some n, l) else popMatching f filter l

/-- The second loop of `__loc_database_enumerator_next_network`, database.c:1353-1418 -/
def dfsLoop (db : Db) (filter : Bool) : Nat → NetEnum → Res (Next Network × NetEnum)
  | 0, _ => .error .diverge
  | fuel + 1, e =>
    match e.nodes with
    | [] => .ok (.done, e)
    | node :: rest =>
      if node.offset ≥ db.nodeCount then .error .oob
      else if node.offset ∈ e.visited then dfsLoop db filter fuel { e with nodes := rest }
      else if node.depth - 1 ≥ 128 then .error .oob
      else
        let e := { e with address := setBit e.address (node.depth - 1) node.i, visited := node.offset :: e.visited }
        match fetchNode db node.offset with
        | .error x => .error x
        | .ok none => .ok (.failed, e)
        | .ok (some r) =>
          match pushNode db e.nodes r.one true (node.depth + 1) with
          | .error x => .error x
          | .ok none => .ok (.failed, e)
          | .ok (some nodes) =>
            let e := { e with nodes := nodes }
            match pushNode db e.nodes r.zero false (node.depth + 1) with
            | .error x => .error x
            | .ok none => .ok (.failed, e)
            | .ok (some nodes) =>
              let e := { e with nodes := nodes }
              if isLeaf r then
                match fetchNetwork db e.address node.depth r.net with
                | .error x => .error x
                | .ok .soft => .ok (.failed, e)
                | .ok .hard => .ok (.failedHeld, e)
                | .ok (.got n) =>
                  if !filter || matchNetwork e.filter n then .ok (.item n, e) else dfsLoop db filter fuel e
              else dfsLoop db filter fuel e

/-- Enough rounds for the loop above: every round visits a node or takes one from the stack. -/
def dfsFuel (db : Db) (e : NetEnum) : Nat := 3 * db.nodeCount + e.nodes.length + 1

/-- `__loc_database_enumerator_next_network`, database.c:1331-1422 -/
def nextNetworkRaw (db : Db) (filter : Bool) (e : NetEnum) : Res (Next Network × NetEnum) :=
  match popMatching e.filter filter e.stack with
  | (some n, l) => .ok (.item n, { e with stack := l })
  | (none, l) => dfsLoop db filter (dfsFuel db e) { e with stack := l }

/-- `loc_database_enumerator_next_network`, database.c:1667-1683, without flattening -/
def nextNetwork (db : Db) (e : NetEnum) : Res (Next Network × NetEnum) := nextNetworkRaw db true e

end Loc
