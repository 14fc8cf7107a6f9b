import Verif.Model.CountryCode
/-
Model of the reference counted objects of the library: who holds references to whom, what the functions that create, change
and release objects do to the counters, and what happens if they fail in the middle.

* `src/libloc.c` (contexts), `src/country.c`, `src/as.c`, `src/network.c` (items), `src/country-list.c`, `src/as-list.c`,
  `src/network-list.c` (lists), `src/stringpool.c`, `src/network-tree.c` (new, unref), `src/database.c` (new, open, fetching
  objects, enumerators), `src/writer.c` (new, adding objects, unref), and `src/python/database.c`, `src/python/writer.c`
  (init, search, dealloc).
* Contents matter only where they decide about references: keys of countries (code) and ASes (number), the tables of ASes
  and countries of a database.  The networks in the list of an enumerator are the subject of `Model/EnumLife.lean`, those in
  the tree of a writer of `Model/Lifetime.lean`; names that are NULL or belong to other objects that of `Model/Names.lean`.
* An object counts as released from the moment its counter reaches zero, so everything in the `_free` functions that would
  access the object once more is read before that.  The code releases the memory at the end of these functions; what is
  accessed in between belongs to the function itself.
-/
namespace Loc.Objects

/-- What can go wrong: something released is accessed, NULL is accessed, a pointer points to something of another type. -/
inductive OFault
  | freed
  | null
  | kind
  deriving DecidableEq, Repr

/-- Countries, ASes, networks -/
inductive Item
  | country
  | as
  | network
  deriving DecidableEq, Repr

/-- `enum loc_database_enumerator_mode`, libloc/database.h:53-58 -/
inductive EnumMode
  | networks
  | ases
  | countries
  | bogons
  deriving DecidableEq, Repr

/-- What the pointers of an object point to; objects are named by numbers, `none` is NULL.

    * `block`: memory from `malloc` and its relatives, mapped memory, open files, keys: things without a counter
    * `ctx`: `struct loc_ctx`, libloc.c:35-43
    * `item`: `struct loc_country`, country.c:38-48, `struct loc_as`, as.c:34-40, `struct loc_network`, network.c:36-50;
      `key` stands for code and number
    * `list`: `struct loc_country_list`, country-list.c:25-33, `struct loc_as_list`, as-list.c:24-32,
      `struct loc_network_list`, network-list.c:26-34; `room` is `elements_size`, the list `elements` has the length `size`
    * `pool`: `struct loc_stringpool`, stringpool.c:32-43
    * `tree`, `node`: `struct loc_network_tree`, `struct loc_network_tree_node`, network-tree.c:26-44; nodes without
      children and networks only
    * `db`: `struct loc_database`, database.c:64-98; `ases` (number, and whether its name is in the pool) and `countries`
      (code, and whether its name is in the pool) stand for the tables of the file
    * `enum`: `struct loc_database_enumerator`, database.c:108-144
    * `writer`: `struct loc_writer`, writer.c:47-70
    * `pyDb`: `DatabaseObject`, python/database.h:25-29
    * `pyObj`: some other object of Python -/
inductive Obj
  | block
  | ctx
  | item (k : Item) (ctx key : Nat) (name : Option Nat)
  | list (k : Item) (ctx : Nat) (array : Option Nat) (room : Nat) (elements : List Nat)
  | pool (ctx : Nat) (blocks : Option Nat) (length size : Nat)
  | node (ctx : Nat)
  | tree (ctx : Nat) (root : Option Nat)
  | db (ctx : Nat) (data pool file : Option Nat) (ases : List (Nat × Bool)) (countries : List (CStr × Bool))
  | enum (ctx db : Nat) (mode : EnumMode) (string countries asns visited stack : Option Nat)
      (asIndex countryIndex : Nat)
  | writer (ctx : Nat) (pool networks asns countries key1 key2 : Option Nat)
  | pyDb (db path : Option Nat)
  | pyObj
  deriving DecidableEq, Repr

/-- The types of objects -/
inductive OKind
  | block | ctx | item (k : Item) | list (k : Item) | pool | node | tree | db | enum | writer | pyDb | pyObj
  deriving DecidableEq, Repr

def Obj.kind : Obj → OKind
  | .block => .block
  | .ctx => .ctx
  | .item k .. => .item k
  | .list k .. => .list k
  | .pool .. => .pool
  | .node .. => .node
  | .tree .. => .tree
  | .db .. => .db
  | .enum .. => .enum
  | .writer .. => .writer
  | .pyDb .. => .pyDb
  | .pyObj => .pyObj

/-- All objects ever created with their counters (0: released), and what the environment will do when asked: `fails` tells
    whether the next allocations, files and keys are bad, `odd` does the same for the events the code is not prepared for
    (see `oddly`).  If nothing is left everything goes well. -/
structure OState where
  objs : List (Obj × Nat)
  fails : List Bool
  odd : List Bool
  deriving DecidableEq, Repr

abbrev OM := StateT OState (Except OFault)

/-- Does the next thing fail? -/
def chance : OM Bool := fun s =>
  match s.fails with
  | [] => .ok (false, s)
  | b :: bs => .ok (b, { s with fails := bs })

/-- Does the next thing fail that the code handles badly?  These are `dup` returning 0 (database.c:405), `fdopen` failing
    (database.c:411), `strdup` failing in `loc_database_enumerator_set_string` (database.c:1150), `calloc` failing for the
    root of a tree (network-tree.c:55), `realloc` failing for a string pool (stringpool.c:52). -/
def oddly : OM Bool := fun s =>
  match s.odd with
  | [] => .ok (false, s)
  | b :: bs => .ok (b, { s with odd := bs })

/-- Access to an object -/
def look (i : Nat) : OM Obj := fun s =>
  match s.objs[i]? with
  | some (o, k) => if k = 0 then .error .freed else .ok (o, s)
  | none => .error .freed

/-- Access to a context for logging (libloc/private.h:30-46; `DEBUG` only if compiled with debugging), or to a block. -/
def touch (i : Nat) : OM Unit := do
  let _ ← look i

/-- A new object with one reference -/
def create (o : Obj) : OM Nat := fun s => .ok (s.objs.length, { s with objs := s.objs ++ [(o, 1)] })

/-- Assignment to fields of an object -/
def store (i : Nat) (o : Obj) : OM Unit := fun s =>
  match s.objs[i]? with
  | some (_, k) => if k = 0 then .error .freed else .ok ((), { s with objs := s.objs.set i (o, k) })
  | none => .error .freed

/-- `x->refcount++`: `loc_ref`, libloc.c:109-116 (not for NULL), `loc_country_ref`, country.c:70-74, `loc_as_ref`,
    as.c:58-62, `loc_network_ref`, network.c:108-112, `loc_country_list_ref`, country-list.c:69-73, `loc_as_list_ref`,
    as-list.c:68-72, `loc_network_list_ref`, network-list.c:69-73, `loc_stringpool_ref`, stringpool.c:135-139,
    `loc_database_ref`, database.c:517-521, `loc_database_enumerator_ref`, database.c:1131-1135, `loc_writer_ref`,
    writer.c:148-152 -/
def incr (i : Nat) : OM Unit := fun s =>
  match s.objs[i]? with
  | some (o, k) => if k = 0 then .error .freed else .ok ((), { s with objs := s.objs.set i (o, k + 1) })
  | none => .error .freed

/-- `--x->refcount > 0` of the `_unref` functions: was it the last reference? -/
def decr (i : Nat) : OM Bool := fun s =>
  match s.objs[i]? with
  | some (o, k) => if k = 0 then .error .freed else .ok (k == 1, { s with objs := s.objs.set i (o, k - 1) })
  | none => .error .freed

/-- `malloc`, `strdup`, … -/
def malloc : OM (Option Nat) := do
  let bad ← chance
  if bad then pure none
  else do
    let b ← create .block
    pure (some b)

/-- `free`, `fclose`, `munmap`, `EVP_PKEY_free` -/
def freeBlock (i : Nat) : OM Unit := do
  let o ← look i
  match o with
  | .block => do
    let _ ← decr i
  | _ => throw .kind

/-- `if (p) free(p)` -/
def freeOpt : Option Nat → OM Unit
  | none => pure ()
  | some b => freeBlock b

/-! ### Contexts -/

/-- `loc_new`, libloc.c:88-107 -/
def ctxNew : OM (Option Nat) := do
  let bad ← chance
  if bad then pure none
  else do
    let c ← create .ctx
    pure (some c)

/-- `loc_unref`, libloc.c:118-126 -/
def ctxUnref (i : Nat) : OM Unit := do
  let o ← look i
  match o with
  | .ctx => do
    let _ ← decr i
  | _ => throw .kind

/-! ### Countries, ASes, networks -/

/-- `loc_country_new`, country.c:50-68 (for valid codes), `loc_as_new`, as.c:42-56, `loc_network_new`, network.c:52-90 (for
    valid prefixes) -/
def itemNew (k : Item) (ctx key : Nat) : OM (Option Nat) := do
  let bad ← chance
  if bad then pure none
  else do
    incr ctx
    let i ← create (.item k ctx key none)
    touch ctx
    pure (some i)

/-- `loc_country_unref`, `loc_country_free`, country.c:76-93; `loc_as_unref`, `loc_as_free`, as.c:64-81;
    `loc_network_unref`, `loc_network_free`, network.c:114-127 (networks have no name) -/
def itemUnref (k : Item) (i : Nat) : OM Unit := do
  let o ← look i
  match o with
  | .item k' ctx _ name =>
    if k' = k then do
      let last ← decr i
      if last then do
        touch ctx
        freeOpt name
        ctxUnref ctx
      else pure ()
    else throw .kind
  | _ => throw .kind

/-- `loc_as_set_name`, as.c:92-102, `loc_country_set_name`, country.c:125-138, with a string that does not belong to an
    object.  The field is cleared right after the old name was released, not by the next assignment.  For ASes a failing
    `strdup` is not reported. -/
def itemSetName (k : Item) (i : Nat) : OM Bool := do
  let o ← look i
  match o with
  | .item k' ctx key name =>
    if k' = k then do
      store i (.item k ctx key none)
      freeOpt name
      let b ← malloc
      store i (.item k ctx key b)
      pure (b.isSome || k == .as)
    else throw .kind
  | _ => throw .kind

/-- The key of an item: `loc_country_get_code`, country.c:95-97, `loc_as_get_number`, as.c:83-85 -/
def itemKey (k : Item) (i : Nat) : OM Nat := do
  let o ← look i
  match o with
  | .item k' _ key _ => if k' = k then pure key else throw .kind
  | _ => throw .kind

/-- The code of a country as a number; codes compare (country.c:140-142) like these numbers. -/
def ccKey : CStr → Nat
  | [a, b] => a.toNat * 256 + b.toNat
  | _ => 0

/-- `loc_country_new`, country.c:50-68 -/
def countryNew (ctx : Nat) (code : CStr) : OM (Option Nat) :=
  if ccIsValid (some code) then itemNew .country ctx (ccKey code) else pure none

/-! ### Lists -/

/-- `loc_country_list_new`, country-list.c:54-67, `loc_as_list_new`, as-list.c:53-66, `loc_network_list_new`,
    network-list.c:55-67 -/
def listNew (k : Item) (ctx : Nat) : OM (Option Nat) := do
  let bad ← chance
  if bad then pure none
  else do
    incr ctx
    let l ← create (.list k ctx none 0 [])
    touch ctx
    pure (some l)

/-- The loops of `loc_country_list_clear` (country-list.c:103-104) and the like -/
def itemsUnref (k : Item) : List Nat → OM Unit
  | [] => pure ()
  | x :: xs => do
    itemUnref k x
    itemsUnref k xs

/-- The body of `loc_country_list_clear`, country-list.c:99-112, `loc_as_list_clear`, as-list.c:101-114,
    `loc_network_list_clear`, network-list.c:98-111, without the assignments to the fields of the list -/
def elementsRelease (k : Item) (array : Option Nat) (elements : List Nat) : OM Unit :=
  match array with
  | none => pure ()
  | some a => do
    itemsUnref k elements
    freeBlock a

/-- `loc_country_list_clear`, country-list.c:99-112, and so on.  The fields are changed first. -/
def listClear (k : Item) (l : Nat) : OM Unit := do
  let o ← look l
  match o with
  | .list k' ctx array _ elements =>
    if k' = k then
      match array with
      | none => pure ()
      | some a => do
        store l (.list k ctx none 0 [])
        elementsRelease k (some a) elements
    else throw .kind
  | _ => throw .kind

/-- `loc_country_list_unref`, `loc_country_list_free`, country-list.c:75-90; `loc_as_list_unref`, `loc_as_list_free`,
    as-list.c:74-92; `loc_network_list_unref`, `loc_network_list_free`, network-list.c:75-91 -/
def listUnref (k : Item) (l : Nat) : OM Unit := do
  let o ← look l
  match o with
  | .list k' ctx array _ elements =>
    if k' = k then do
      let last ← decr l
      if last then do
        touch ctx
        elementsRelease k array elements
        ctxUnref ctx
      else pure ()
    else throw .kind
  | _ => throw .kind

/-- `if (p) loc_..._list_unref(p)` -/
def listUnrefOpt (k : Item) : Option Nat → OM Unit
  | none => pure ()
  | some l => listUnref k l

/-- `loc_country_list_contains`, country-list.c:143-151, `loc_as_list_contains`, as-list.c:145-153 -/
def elementsContain (k : Item) (x : Nat) : List Nat → OM Bool
  | [] => pure false
  | y :: ys => do
    let a ← itemKey k x
    let b ← itemKey k y
    if a = b then pure true else elementsContain k x ys

/-- `loc_country_list_grow`, country-list.c:35-52, `loc_as_list_grow`, as-list.c:34-51: is there more room now? -/
def listGrow (k : Item) (l : Nat) : OM Bool := do
  let o ← look l
  match o with
  | .list k' ctx array room elements =>
    if k' = k then do
      touch ctx
      let size := if room * 2 < 1024 then 1024 else room * 2
      let bad ← chance
      if bad then pure false
      else do
        let a ← create .block
        store l (.list k ctx (some a) (room + size) elements)
        freeOpt array
        pure true
    else throw .kind
  | _ => throw .kind

/-- Lines country-list.c:138 and as-list.c:140: one more element -/
def listStore (k : Item) (l x : Nat) : OM Unit := do
  incr x
  let o ← look l
  match o with
  | .list k' ctx array room elements =>
    if k' = k then
      match array with
      | none => throw .null
      | some a => store l (.list k ctx (some a) room (elements ++ [x]))
    else throw .kind
  | _ => throw .kind

/-- `loc_country_list_append`, country-list.c:122-141, `loc_as_list_append`, as-list.c:124-143: `false` is an error -/
def listAppend (k : Item) (l x : Nat) : OM Bool := do
  let o ← look l
  match o with
  | .list k' ctx _ room elements =>
    if k' = k then do
      let known ← elementsContain k x elements
      if known then pure true
      else do
        let ok ← if elements.length ≥ room then listGrow k l else pure true
        if ok then do
          touch ctx
          listStore k l x
          pure true
        else pure false
    else throw .kind
  | _ => throw .kind

/-- `loc_country_list_get`, country-list.c:114-120, `loc_as_list_get`, as-list.c:116-122 -/
def listGet (k : Item) (l n : Nat) : OM (Option Nat) := do
  let o ← look l
  match o with
  | .list k' _ _ _ elements =>
    if k' = k then
      match elements[n]? with
      | none => pure none
      | some x => do
        incr x
        pure (some x)
    else throw .kind
  | _ => throw .kind

/-- `loc_country_list_contains_code`, country-list.c:153-170 (for valid codes), `loc_as_list_contains_number`,
    as-list.c:155-167: `none` is an error -/
def listContainsKey (k : Item) (l key : Nat) : OM (Option Bool) := do
  let o ← look l
  match o with
  | .list k' ctx _ _ elements =>
    if k' = k then do
      let x ← itemNew k ctx key
      match x with
      | none => pure none
      | some x => do
        let r ← elementsContain k x elements
        itemUnref k x
        pure (some r)
    else throw .kind
  | _ => throw .kind

/-- The keys of elements -/
def elementKeys (k : Item) : List Nat → OM (List (Nat × Nat))
  | [] => pure []
  | x :: xs => do
    let a ← itemKey k x
    let rest ← elementKeys k xs
    pure ((a, x) :: rest)

/-- `loc_country_list_sort`, country-list.c:176-179, `loc_as_list_sort`, as-list.c:173-176.  `qsort` is taken to be stable. -/
def listSort (k : Item) (l : Nat) : OM Unit := do
  let o ← look l
  match o with
  | .list k' ctx array room elements =>
    if k' = k then do
      let keys ← elementKeys k elements
      store l (.list k ctx array room ((keys.mergeSort (fun a b => decide (a.1 ≤ b.1))).map (·.2)))
    else throw .kind
  | _ => throw .kind

/-! ### String pools, trees -/

/-- `loc_stringpool_new`, stringpool.c:97-109, `loc_stringpool_open`, stringpool.c:111-133 -/
def poolNew (ctx : Nat) : OM (Option Nat) := do
  let bad ← chance
  if bad then pure none
  else do
    incr ctx
    let p ← create (.pool ctx none 0 0)
    pure (some p)

/-- `loc_stringpool_unref`, `loc_stringpool_free`, stringpool.c:86-95 and 141-148 -/
def poolUnref (p : Nat) : OM Unit := do
  let o ← look p
  match o with
  | .pool ctx blocks _ _ => do
    let last ← decr p
    if last then do
      touch ctx
      freeOpt blocks
      ctxUnref ctx
    else pure ()
  | _ => throw .kind

/-- `if (p) loc_stringpool_unref(p)` -/
def poolUnrefOpt : Option Nat → OM Unit
  | none => pure ()
  | some p => poolUnref p

/-- `loc_stringpool_grow`, stringpool.c:45-62.  If `realloc` fails the pointer to the old memory is overwritten. -/
def poolGrow (p : Nat) : OM Bool := do
  let o ← look p
  match o with
  | .pool ctx blocks length size => do
    touch ctx
    let bad ← oddly
    if bad then do
      store p (.pool ctx none length (size + 524288))
      touch ctx
      pure false
    else do
      let b ← create .block
      store p (.pool ctx (some b) length (size + 524288))
      freeOpt blocks
      pure true
  | _ => throw .kind

/-- Lines stringpool.c:76-83: the string is copied behind the others. -/
def poolStore (p len : Nat) : OM Unit := do
  let o ← look p
  match o with
  | .pool ctx blocks length size =>
    match blocks with
    | none => throw .null
    | some b => do
      touch b
      store p (.pool ctx (some b) (length + (len + 1)) size)
  | _ => throw .kind

/-- `loc_stringpool_add`, stringpool.c:191-199, with `loc_stringpool_append`, stringpool.c:64-84, for a string of `len`
    bytes; `found` tells whether it was found.  `false` is the error of `loc_stringpool_grow`, which is returned as an
    offset. -/
def poolAdd (p len : Nat) (found : Bool) : OM Bool := do
  let o ← look p
  match o with
  | .pool ctx _ length size =>
    if found then pure true
    else do
      touch ctx
      let ok ← if length + (len + 1) > size then poolGrow p else pure true
      if ok then do
        poolStore p len
        pure true
      else pure false
  | _ => throw .kind

/-- `loc_network_tree_node_unref`, `loc_network_tree_node_free`, network-tree.c:294-316 -/
def nodeUnref (n : Nat) : OM Unit := do
  let o ← look n
  match o with
  | .node ctx => do
    let last ← decr n
    if last then do
      touch ctx
      ctxUnref ctx
    else pure ()
  | _ => throw .kind

/-- `loc_network_tree_unref`, `loc_network_tree_free`, network-tree.c:162-177.  The pointer to the root is not checked. -/
def treeUnref (t : Nat) : OM Unit := do
  let o ← look t
  match o with
  | .tree ctx root => do
    let last ← decr t
    if last then do
      touch ctx
      match root with
      | none => throw .null
      | some r => do
        nodeUnref r
        ctxUnref ctx
    else pure ()
  | _ => throw .kind

/-- `if (p) loc_network_tree_unref(p)` -/
def treeUnrefOpt : Option Nat → OM Unit
  | none => pure ()
  | some t => treeUnref t

/-- `loc_network_tree_new`, network-tree.c:46-64, with `loc_network_tree_node_new`, network-tree.c:272-285.  The node is
    created before the tree. -/
def treeNew (ctx : Nat) : OM (Option Nat) := do
  let bad ← chance
  if bad then pure none
  else do
    incr ctx
    let worse ← oddly
    if worse then do
      let t ← create (.tree ctx none)
      treeUnref t
      pure none
    else do
      incr ctx
      let n ← create (.node ctx)
      let t ← create (.tree ctx (some n))
      touch ctx
      pure (some t)

/-! ### Databases -/

/-- `loc_database_unref`, `loc_database_free`, database.c:457-479 and 523-529 -/
def dbUnref (d : Nat) : OM Unit := do
  let o ← look d
  match o with
  | .db ctx data pool file _ _ => do
    let last ← decr d
    if last then do
      touch ctx
      freeOpt data
      poolUnrefOpt pool
      freeOpt file
      ctxUnref ctx
    else pure ()
  | _ => throw .kind

/-- `if (p) loc_database_unref(p)` -/
def dbUnrefOpt : Option Nat → OM Unit
  | none => pure ()
  | some d => dbUnref d

/-- `loc_database_clone_handle`, database.c:400-422: a descriptor becomes part of the stream opened for it.  If the
    descriptor is 0, or no stream can be opened for it, nobody remembers the descriptor. -/
def dbCloneHandle (d : Nat) : OM Bool := do
  let o ← look d
  match o with
  | .db ctx data pool _ ases countries => do
    let bad ← chance                      -- `dup` returns -1, and `fdopen` rejects that
    if bad then do
      touch ctx
      pure false
    else do
      let fd ← create .block
      let zero ← oddly                    -- `dup` returns 0
      if zero then do
        touch ctx
        pure false
      else do
        let worse ← oddly                 -- `fdopen` fails
        if worse then do
          touch ctx
          pure false
        else do
          store d (.db ctx data pool (some fd) ases countries)
          pure true
  | _ => throw .kind

/-- `loc_database_mmap`, database.c:238-271 -/
def dbMap (d : Nat) : OM Bool := do
  let o ← look d
  match o with
  | .db ctx _ pool file ases countries => do
    let bad ← chance                      -- `lseek` or `mmap` fail
    if bad then do
      touch ctx
      pure false
    else do
      let m ← create .block
      store d (.db ctx (some m) pool file ases countries)
      let bad ← chance                    -- `madvise` fails
      touch ctx
      pure (!bad)
  | _ => throw .kind

/-- `loc_database_read_header_v1`, database.c:307-386: all its checks, then the pool; mapping the tables never fails. -/
def dbReadHeader (d : Nat) : OM Bool := do
  let o ← look d
  match o with
  | .db ctx data _ file ases countries => do
    touch ctx
    let bad ← chance
    if bad then pure false
    else do
      let p ← poolNew ctx
      match p with
      | none => pure false
      | some p => do
        store d (.db ctx data (some p) file ases countries)
        pure true
  | _ => throw .kind

/-- `loc_database_open`, database.c:424-455; the second question is whether the magic bytes are wrong. -/
def dbOpen (d : Nat) : OM Bool := do
  let ok ← dbCloneHandle d
  if ok then do
    let bad ← chance
    if bad then pure false
    else do
      let ok ← dbMap d
      if ok then dbReadHeader d
      else pure false
  else pure false

/-- `loc_database_new`, database.c:481-515, for a file with the tables `ases` and `countries`.  After an error
    `loc_database_free` is called, which does what `loc_database_unref` does to an object with one reference. -/
def dbNew (ctx : Nat) (ases : List (Nat × Bool)) (countries : List (CStr × Bool)) : OM (Option Nat) := do
  let bad ← chance
  if bad then pure none
  else do
    incr ctx
    let d ← create (.db ctx none none none ases countries)
    touch ctx
    let ok ← dbOpen d
    if ok then pure (some d)
    else do
      dbUnref d
      pure none

/-- Following a pointer -/
def follow : Option Nat → OM Unit
  | none => throw .null
  | some i => touch i

/-- Reading from the mapped file and its pool -/
def dbRead (data pool : Option Nat) : OM Unit := do
  follow data
  follow pool

/-- `loc_database_fetch_as`, database.c:726-757, with `loc_as_new_from_database_v1`, as.c:114-131.  Checking the
    boundaries of the file is part of the first question. -/
def fetchAs (d pos : Nat) : OM (Option Nat) := do
  let o ← look d
  match o with
  | .db ctx data pool _ ases _ =>
    match ases[pos]? with
    | none => pure none
    | some (number, named) => do
      dbRead data pool
      let a ← itemNew .as ctx number
      match a with
      | none => pure none
      | some a => do
        let _ ← if named then itemSetName .as a else pure true
        touch ctx
        pure (some a)
  | _ => throw .kind

/-- `loc_database_fetch_country`, database.c:972-1005, with `loc_country_new_from_database_v1`, country.c:144-173 -/
def fetchCountry (d pos : Nat) : OM (Option Nat) := do
  let o ← look d
  match o with
  | .db ctx data pool _ _ countries =>
    match countries[pos]? with
    | none => pure none
    | some (code, named) => do
      dbRead data pool
      let c ← countryNew ctx code
      match c with
      | none => pure none
      | some c =>
        if named then do
          let ok ← itemSetName .country c
          if ok then do
            touch ctx
            pure (some c)
          else do
            itemUnref .country c
            pure none
        else do
          touch ctx
          pure (some c)
  | _ => throw .kind

/-- The loop of `loc_database_get_as`, database.c:769-804.  Not found and errors both give no object. -/
def getAsLoop (d number : Nat) (lo hi : Int) : OM (Option Nat) :=
  if lo ≤ hi then do
    let a ← fetchAs d ((lo + hi) / 2).toNat
    match a with
    | none => pure none
    | some a => do
      let n ← itemKey .as a
      if n = number then pure (some a)
      else do
        itemUnref .as a
        if n < number then getAsLoop d number ((lo + hi) / 2 + 1) hi
        else getAsLoop d number lo ((lo + hi) / 2 - 1)
  else pure none
termination_by (hi + 1 - lo).toNat

/-- `loc_database_get_as`, database.c:760-805 -/
def dbGetAs (d number : Nat) : OM (Option Nat) := do
  let o ← look d
  match o with
  | .db _ _ _ _ ases _ => getAsLoop d number 0 ((ases.length : Int) - 1)
  | _ => throw .kind

/-- The loop of `loc_database_get_country`, database.c:1024-1061 -/
def getCountryLoop (d key : Nat) (lo hi : Int) : OM (Option Nat) :=
  if lo ≤ hi then do
    let c ← fetchCountry d ((lo + hi) / 2).toNat
    match c with
    | none => pure none
    | some c => do
      let n ← itemKey .country c
      if n = key then pure (some c)
      else do
        itemUnref .country c
        if n < key then getCountryLoop d key ((lo + hi) / 2 + 1) hi
        else getCountryLoop d key lo ((lo + hi) / 2 - 1)
  else pure none
termination_by (hi + 1 - lo).toNat

/-- `loc_database_get_country`, database.c:1008-1062 -/
def dbGetCountry (d : Nat) (code : CStr) : OM (Option Nat) := do
  let o ← look d
  match o with
  | .db _ _ _ _ _ countries =>
    if ccIsValid (some code) then getCountryLoop d (ccKey code) 0 ((countries.length : Int) - 1)
    else pure none
  | _ => throw .kind

/-- `loc_database_lookup`, database.c:876-958, with `__loc_database_lookup_handle_leaf`, database.c:848-874: the walk
    through the tree meets at most one leaf whose network is fetched (`leaf`), and tells whether the address is in it. -/
def dbLookup (d : Nat) (leaf : Option Bool) : OM (Option Nat) := do
  let o ← look d
  match o with
  | .db ctx data pool _ _ _ =>
    match leaf with
    | none => pure none
    | some inside => do
      dbRead data pool
      let n ← itemNew .network ctx 0
      match n with
      | none => do
        touch ctx
        pure none
      | some n =>
        if inside then pure (some n)
        else do
          itemUnref .network n
          pure none
  | _ => throw .kind

/-! ### Enumerators -/

/-- `loc_database_enumerator_unref`, `loc_database_enumerator_free`, database.c:1066-1094 and 1137-1146; the list `subnets`
    is not modelled here. -/
def enumUnref (e : Nat) : OM Unit := do
  let o ← look e
  match o with
  | .enum ctx db _ string countries asns visited stack _ _ => do
    let last ← decr e
    if last then do
      touch ctx
      dbUnref db
      ctxUnref ctx
      freeOpt string
      listUnrefOpt .country countries
      listUnrefOpt .as asns
      freeOpt visited
      listUnrefOpt .network stack
    else pure ()
  | _ => throw .kind

/-- `loc_database_enumerator_new`, database.c:1096-1129.  `loc_database_enumerator_free` does what
    `loc_database_enumerator_unref` does to an object with one reference. -/
def enumNew (d : Nat) (mode : EnumMode) : OM (Option Nat) := do
  let o ← look d
  match o with
  | .db ctx _ _ _ _ _ => do
    let bad ← chance
    if bad then pure none
    else do
      incr ctx
      incr d
      let e ← create (.enum ctx d mode none none none none none 0 0)
      let v ← malloc
      match v with
      | none => do
        touch ctx
        enumUnref e
        pure none
      | some v => do
        store e (.enum ctx d mode none none none (some v) none 0 0)
        let l ← listNew .network ctx
        match l with
        | none => do
          enumUnref e
          pure none
        | some l => do
          store e (.enum ctx d mode none none none (some v) (some l) 0 0)
          touch ctx
          pure (some e)
  | _ => throw .kind

/-- `loc_database_enumerator_set_string`, database.c:1148-1156: a former string is forgotten, and the copy is used without
    a check. -/
def enumSetString (e : Nat) : OM Unit := do
  let o ← look e
  match o with
  | .enum ctx db mode _ countries asns visited stack i j => do
    let bad ← oddly
    if bad then throw .null
    else do
      let b ← create .block
      store e (.enum ctx db mode (some b) countries asns visited stack i j)
      touch b
  | _ => throw .kind

/-- `loc_database_enumerator_get_countries`, database.c:1158-1164, `loc_database_enumerator_get_asns`,
    database.c:1176-1182 -/
def enumGetList (k : Item) (e : Nat) : OM (Option Nat) := do
  let o ← look e
  match o with
  | .enum _ _ _ _ countries asns _ _ _ _ =>
    match k with
    | .network => throw .kind
    | .country =>
      match countries with
      | none => pure none
      | some l => do
        incr l
        pure (some l)
    | .as =>
      match asns with
      | none => pure none
      | some l => do
        incr l
        pure (some l)
  | _ => throw .kind

/-- `loc_database_enumerator_set_countries`, database.c:1166-1174.  The field is cleared right after the old list was
    released. -/
def enumSetCountries (e l : Nat) : OM Unit := do
  let o ← look e
  match o with
  | .enum ctx db mode string countries asns visited stack i j => do
    store e (.enum ctx db mode string none asns visited stack i j)
    listUnrefOpt .country countries
    incr l
    store e (.enum ctx db mode string (some l) asns visited stack i j)
  | _ => throw .kind

/-- `loc_database_enumerator_set_asns`, database.c:1184-1192 -/
def enumSetAsns (e l : Nat) : OM Unit := do
  let o ← look e
  match o with
  | .enum ctx db mode string countries asns visited stack i j => do
    store e (.enum ctx db mode string countries none visited stack i j)
    listUnrefOpt .as asns
    incr l
    store e (.enum ctx db mode string countries (some l) visited stack i j)
  | _ => throw .kind

/-- Assignments to `as_index` and `country_index` -/
def enumStoreIndexes (e asIndex countryIndex : Nat) : OM Unit := do
  let o ← look e
  match o with
  | .enum ctx db mode string countries asns visited stack _ _ =>
    store e (.enum ctx db mode string countries asns visited stack asIndex countryIndex)
  | _ => throw .kind

/-- `loc_as_match_string`, as.c:143-157; `matched` is the answer of `strcasestr`. -/
def asMatch (a : Nat) (string : Option Nat) (matched : Bool) : OM Bool :=
  match string with
  | none => pure true
  | some b => do
    let o ← look a
    match o with
    | .item _ _ _ name =>
      match name with
      | none => pure true
      | some n => do
        touch n
        touch b
        pure matched
    | _ => throw .kind

/-- The loop of `loc_database_enumerator_next_as`, database.c:1231-1254, for the remaining positions; `matches` tells which
    names match.  Errors and the end both give no object. -/
def nextAsLoop (e d : Nat) (string : Option Nat) (countryIndex : Nat) (matched : Nat → Bool) :
    List Nat → OM (Option Nat)
  | [] => do
    enumStoreIndexes e 0 countryIndex
    pure none
  | i :: is => do
    enumStoreIndexes e (i + 1) countryIndex
    let a ← fetchAs d i
    match a with
    | none => pure none
    | some a => do
      let hit ← asMatch a string (matched i)
      if hit then pure (some a)
      else do
        itemUnref .as a
        nextAsLoop e d string countryIndex matched is

/-- `loc_database_enumerator_next_as`, database.c:1221-1255 -/
def enumNextAs (e : Nat) (matched : Nat → Bool) : OM (Option Nat) := do
  let o ← look e
  match o with
  | .enum _ db mode string _ _ _ _ i j =>
    if mode = .ases then do
      let o ← look db
      match o with
      | .db _ _ _ _ ases _ => nextAsLoop e db string j matched (List.range' i (ases.length - i))
      | _ => throw .kind
    else pure none
  | _ => throw .kind

/-- `loc_database_enumerator_next_country`, database.c:1685-1710 -/
def enumNextCountry (e : Nat) : OM (Option Nat) := do
  let o ← look e
  match o with
  | .enum _ db mode _ _ _ _ _ i j =>
    if mode = .countries then do
      let o ← look db
      match o with
      | .db _ _ _ _ _ countries =>
        if j < countries.length then do
          enumStoreIndexes e i (j + 1)
          fetchCountry db j
        else do
          enumStoreIndexes e i 0
          pure none
      | _ => throw .kind
    else pure none
  | _ => throw .kind

/-! ### Writers -/

/-- `loc_writer_unref`, `loc_writer_free`, writer.c:154-189 -/
def writerUnref (w : Nat) : OM Unit := do
  let o ← look w
  match o with
  | .writer ctx pool networks asns countries key1 key2 => do
    let last ← decr w
    if last then do
      touch ctx
      freeOpt key1
      freeOpt key2
      listUnrefOpt .as asns
      listUnrefOpt .country countries
      treeUnrefOpt networks
      poolUnrefOpt pool
      ctxUnref ctx
    else pure ()
  | _ => throw .kind

/-- `parse_private_key`, writer.c:72-89, called for a file only: `none` is an error. -/
def parseKey (ctx : Nat) (file : Bool) : OM (Option (Option Nat)) :=
  if file then do
    let k ← malloc
    match k with
    | none => do
      touch ctx
      pure none
    | some k => pure (some (some k))
  else pure (some none)

/-- `loc_writer_new`, writer.c:91-146 -/
def writerNew (ctx : Nat) (file1 file2 : Bool) : OM (Option Nat) := do
  let bad ← chance
  if bad then pure none
  else do
    incr ctx
    let w ← create (.writer ctx none none none none none none)
    let p ← poolNew ctx
    match p with
    | none => do
      writerUnref w
      pure none
    | some p => do
      store w (.writer ctx (some p) none none none none none)
      let ok ← poolAdd p 0 false
      if !ok then do
        writerUnref w
        pure none
      else do
        let t ← treeNew ctx
        match t with
        | none => do
          writerUnref w
          pure none
        | some t => do
          store w (.writer ctx (some p) (some t) none none none none)
          let a ← listNew .as ctx
          match a with
          | none => do
            writerUnref w
            pure none
          | some a => do
            store w (.writer ctx (some p) (some t) (some a) none none none)
            let c ← listNew .country ctx
            match c with
            | none => do
              writerUnref w
              pure none
            | some c => do
              store w (.writer ctx (some p) (some t) (some a) (some c) none none)
              let k1 ← parseKey ctx file1
              match k1 with
              | none => do
                writerUnref w
                pure none
              | some k1 => do
                store w (.writer ctx (some p) (some t) (some a) (some c) k1 none)
                let k2 ← parseKey ctx file2
                match k2 with
                | none => do
                  writerUnref w
                  pure none
                | some k2 => do
                  store w (.writer ctx (some p) (some t) (some a) (some c) k1 k2)
                  pure (some w)

/-- `loc_writer_set_vendor`, writer.c:195-203, and the like: `loc_stringpool_grow` failing is not noticed. -/
def writerSetText (w len : Nat) (found : Bool) : OM Unit := do
  let o ← look w
  match o with
  | .writer _ pool _ _ _ _ _ =>
    match pool with
    | none => throw .null
    | some p => do
      let _ ← poolAdd p len found
  | _ => throw .kind

/-- `loc_writer_add_as`, writer.c:233-241: what `*as` points to afterwards, and whether there was no error. -/
def writerAddAs (w number : Nat) : OM (Option Nat × Bool) := do
  let o ← look w
  match o with
  | .writer ctx _ _ asns _ _ _ => do
    let a ← itemNew .as ctx number
    match a with
    | none => pure (none, false)
    | some a =>
      match asns with
      | none => throw .null
      | some l => do
        let ok ← listAppend .as l a
        pure (some a, ok)
  | _ => throw .kind

/-- `loc_writer_add_country`, writer.c:255-263 -/
def writerAddCountry (w : Nat) (code : CStr) : OM (Option Nat × Bool) := do
  let o ← look w
  match o with
  | .writer ctx _ _ _ countries _ _ => do
    let c ← countryNew ctx code
    match c with
    | none => pure (none, false)
    | some c =>
      match countries with
      | none => throw .null
      | some l => do
        let ok ← listAppend .country l c
        pure (some c, ok)
  | _ => throw .kind

/-! ### Python -/

/-- `Database_init`, python/database.c:46-78, for an object from `Database_new`, python/database.c:30-34.  The object is
    given to Python also after an error, but Python releases it then.  Pointers of an object that was initialised before are
    overwritten. -/
def pyDbInit (ctx o : Nat) (ases : List (Nat × Bool)) (countries : List (CStr × Bool)) : OM Bool := do
  let x ← look o
  match x with
  | .pyDb db _ => do
    let path ← malloc
    store o (.pyDb db path)
    match path with
    | none => pure false
    | some _ => do
      let f ← malloc
      match f with
      | none => pure false
      | some f => do
        let d ← dbNew ctx ases countries
        match d with
        | none => do
          freeBlock f
          pure false
        | some d => do
          store o (.pyDb (some d) path)
          freeBlock f
          pure true
  | _ => throw .kind

/-- `Database_dealloc`, python/database.c:36-44, when the last reference to the object is dropped -/
def pyDbUnref (o : Nat) : OM Unit := do
  let x ← look o
  match x with
  | .pyDb db path => do
    let last ← decr o
    if last then do
      dbUnrefOpt db
      freeOpt path
    else pure ()
  | _ => throw .kind

/-- `location.Database(path)`: `tp_alloc`, `Database_init`; after an error the object is released. -/
def pyDbNew (ctx : Nat) (ases : List (Nat × Bool)) (countries : List (CStr × Bool)) : OM (Option Nat) := do
  let bad ← chance
  if bad then pure none
  else do
    let o ← create (.pyDb none none)
    let ok ← pyDbInit ctx o ases countries
    if ok then pure (some o)
    else do
      pyDbUnref o
      pure none

/-- The loop of `Database_search_networks`, python/database.c:329-364; an item of the list is a string, or something else
    (`none`).  The list is released after an error. -/
def pyCountries (ctx l : Nat) : List (Option CStr) → OM Bool
  | [] => pure true
  | none :: _ => do
    listUnref .country l
    pure false
  | some code :: rest => do
    let c ← countryNew ctx code
    match c with
    | none => do
      listUnref .country l
      pure false
    | some c => do
      let ok ← listAppend .country l c
      if ok then do
        itemUnref .country c
        pyCountries ctx l rest
      else do
        listUnref .country l
        itemUnref .country c
        pure false

/-- The loop of `Database_search_networks`, python/database.c:386-418.  If an AS cannot be created, the code releases what an
    uninitialised pointer points to; that is not modelled. -/
def pyAsns (ctx l : Nat) : List (Option Nat) → OM Bool
  | [] => pure true
  | none :: _ => do
    listUnref .as l
    pure false
  | some number :: rest => do
    let a ← itemNew .as ctx number
    match a with
    | none => do
      listUnref .as l
      pure false
    | some a => do
      let ok ← listAppend .as l a
      if ok then do
        itemUnref .as a
        pyAsns ctx l rest
      else do
        listUnref .as l
        itemUnref .as a
        pure false

/-- Lines python/database.c:320-375 -/
def pySetCountries (ctx e : Nat) : Option (List (Option CStr)) → OM Bool
  | none => pure true
  | some codes => do
    let l ← listNew .country ctx
    match l with
    | none => pure false
    | some l => do
      let ok ← pyCountries ctx l codes
      if ok then do
        enumSetCountries e l
        listUnref .country l
        pure true
      else pure false

/-- Lines python/database.c:377-429 -/
def pySetAsns (ctx e : Nat) : Option (List (Option Nat)) → OM Bool
  | none => pure true
  | some asns => do
    let l ← listNew .as ctx
    match l with
    | none => pure false
    | some l => do
      let ok ← pyAsns ctx l asns
      if ok then do
        enumSetAsns e l
        listUnref .as l
        pure true
      else pure false

/-- `Database_search_networks`, python/database.c:300-455, with `new_database_enumerator`, python/database.c:235-242: the
    reference of the Python object replaces that of the function.  After errors the enumerator is not released.  `ctx` is
    the context of the module. -/
def pySearchNetworks (ctx o : Nat) (codes : Option (List (Option CStr))) (asns : Option (List (Option Nat))) :
    OM (Option Nat) := do
  let x ← look o
  match x with
  | .pyDb db _ =>
    match db with
    | none => throw .null
    | some d => do
      let e ← enumNew d .networks
      match e with
      | none => pure none
      | some e => do
        let ok ← pySetCountries ctx e codes
        if ok then do
          let ok ← pySetAsns ctx e asns
          if ok then pure (some e)
          else pure none
        else pure none
  | _ => throw .kind

/-- `Database_lookup`, `Database_get_as`, `Database_get_country`, python/database.c:142-233: a Python object holds the
    reference instead of the function. -/
def pyLookup (o : Nat) (leaf : Option Bool) : OM (Option Nat) := do
  let x ← look o
  match x with
  | .pyDb db _ =>
    match db with
    | none => throw .null
    | some d => dbLookup d leaf
  | _ => throw .kind

/-- `Py_DECREF` -/
def pyUnref (i : Nat) : OM Unit := do
  let o ← look i
  match o with
  | .pyObj => do
    let _ ← decr i
  | _ => throw .kind

/-- Lines python/writer.c:52-61: a key that is `None` is released, though the reference belongs to the caller. -/
def pyIgnoreNone (pyNone : Nat) (key : Option Nat) : OM (Option Nat) :=
  if key = some pyNone then do
    pyUnref pyNone
    pure none
  else pure key

/-- `Writer_init`, python/writer.c:41-92; the arguments are NULL (not given), `None`, or files. -/
def pyWriterInit (ctx pyNone : Nat) (key1 key2 : Option Nat) : OM (Option Nat) := do
  let k1 ← pyIgnoreNone pyNone key1
  let k2 ← pyIgnoreNone pyNone key2
  writerNew ctx k1.isSome k2.isSome

end Loc.Objects
