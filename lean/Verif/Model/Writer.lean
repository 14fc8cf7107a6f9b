import Verif.Model.Stringpool
import Verif.Model.Tree
/-
Model of `src/as.c`, `src/as-list.c`, `src/country.c`, `src/country-list.c` (objects and lists) and of
`src/writer.c`.
-/
namespace Loc

/-- `struct loc_as`, as.c:34-40 -/
structure AS where
  number : BitVec 32
  name : Option CStr
  deriving DecidableEq, Repr

/-- `struct loc_country`, country.c:38-48: code, continent code (`k0 = 0`: none), name -/
structure Country where
  c0 : Byte
  c1 : Byte
  k0 : Byte
  k1 : Byte
  name : Option CStr
  deriving DecidableEq, Repr

/-- `loc_as_list_contains`, as-list.c:143-151, with `loc_as_cmp`, as.c:104-112 -/
def asListContains (l : List AS) (number : BitVec 32) : Bool := l.any (fun a => a.number == number)

/-- `loc_as_list_append`, as-list.c:124-141 -/
def asListAppend (l : List AS) (a : AS) : List AS := if asListContains l a.number then l else l ++ [a]

/-- Insertion into a list sorted by number. -/
def asInsert (a : AS) : List AS → List AS
  | [] => [a]
  | b :: l => if b.number < a.number then b :: asInsert a l else a :: b :: l

/-- `loc_as_list_sort`, as-list.c:171-174.  `qsort` is replaced by insertion sort; the numbers in a
    list are distinct, so that every correct sorting function gives the same result. -/
def asListSort : List AS → List AS
  | [] => []
  | a :: l => asInsert a (asListSort l)

/-- `loc_country_new`, country.c:50-71 -/
def countryNew (code : Option CStr) : Res Country :=
  if !ccIsValid code then .error (.err EINVAL)
  else match code with
    | some [c0, c1] => .ok ⟨c0, c1, 0, 0, none⟩
    | _ => .error (.err EINVAL)   -- excluded by `ccIsValid`

/-- `loc_country_set_continent_code`, country.c:108-119 -/
def countrySetContinent (c : Country) (code : Option CStr) : Res Country :=
  match code with
  | some [k0, k1] => .ok { c with k0 := k0, k1 := k1 }
  | _ => .error (.err EINVAL)

/-- `loc_country_get_continent_code`, country.c:101-106 -/
def countryContinent (c : Country) : Option CStr :=
  if c.k0 = 0 then none else some (ccString c.k0 c.k1)

/-- `loc_country_get_code`, country.c:97-99 -/
def countryGetCode (c : Country) : CStr := ccString c.c0 c.c1

/-- `loc_country_cmp`, country.c:140-142 (`strncmp` with length 2; codes have no NUL inside) -/
def countryCmp (a b : Country) : Int := ccCmp a.c0 a.c1 b.c0 b.c1

/-- `loc_country_list_contains`, country-list.c:143-151 -/
def countryListContains (l : List Country) (c : Country) : Bool := l.any (fun d => countryCmp c d == 0)

/-- `loc_country_list_append`, country-list.c:122-139 -/
def countryListAppend (l : List Country) (c : Country) : List Country :=
  if countryListContains l c then l else l ++ [c]

/-- `struct loc_writer`, writer.c:47-70.  `K` is the type of private keys.  `sig1`, `sig2` are the
    2048 byte buffers `signature1/2`, `sig1Len`, `sig2Len` the lengths stored with them. -/
structure Writer (K : Type) where
  pool : Pool
  vendor : Nat
  description : Nat
  license : Nat
  key1 : Option K
  key2 : Option K
  sig1 : Bytes
  sig1Len : Nat
  sig2 : Bytes
  sig2Len : Nat
  networks : Tree
  ases : List AS
  countries : List Country

/-- `loc_writer_new`, writer.c:91-153; an empty string is added to the pool first (lines 106-111). -/
def writerNew {K : Type} (key1 key2 : Option K) : Res (Writer K) :=
  match poolAdd poolNew [] with
  | .error e => .error e
  | .ok (_, pool) => .ok ⟨pool, 0, 0, 0, key1, key2, List.replicate sigMax 0, 0, List.replicate sigMax 0, 0, treeNew, [], []⟩

/-- `loc_writer_set_vendor`, writer.c:203-211.  `NULL` is refused (stringpool.c:65-68). -/
def setVendor {K : Type} (w : Writer K) (s : Option CStr) : Res (Writer K) :=
  match s with
  | none => .error (.err EINVAL)
  | some s =>
    match poolAdd w.pool s with
    | .error e => .error e
    | .ok (off, pool) => .ok { w with pool := pool, vendor := off }

/-- `loc_writer_set_description`, writer.c:217-225 -/
def setDescription {K : Type} (w : Writer K) (s : Option CStr) : Res (Writer K) :=
  match s with
  | none => .error (.err EINVAL)
  | some s =>
    match poolAdd w.pool s with
    | .error e => .error e
    | .ok (off, pool) => .ok { w with pool := pool, description := off }

/-- `loc_writer_set_license`, writer.c:231-239 -/
def setLicense {K : Type} (w : Writer K) (s : Option CStr) : Res (Writer K) :=
  match s with
  | none => .error (.err EINVAL)
  | some s =>
    match poolAdd w.pool s with
    | .error e => .error e
    | .ok (off, pool) => .ok { w with pool := pool, license := off }

/-- `loc_writer_add_as`, writer.c:241-249, followed by `loc_as_set_name` (as.c:92-102) on the returned
    object.  When the number is known already the returned object is a new one that is not part of
    the list, so that naming it changes nothing. -/
def addAs {K : Type} (w : Writer K) (number : BitVec 32) (name : Option CStr) : Writer K :=
  { w with ases := asListAppend w.ases ⟨number, name⟩ }

/-- `loc_as_set_name`, as.c:92-102, on the object of the list (through the reference the caller of
    `loc_writer_add_as` holds). -/
def renameAs {K : Type} (w : Writer K) (number : BitVec 32) (name : Option CStr) : Writer K :=
  { w with ases := w.ases.map fun a => if a.number = number then { a with name := name } else a }

/-- `loc_writer_add_country`, writer.c:263-271, followed by `loc_country_set_continent_code` and
    `loc_country_set_name` on the returned object (see `addAs`); a rejected continent code changes
    nothing. -/
def addCountry {K : Type} (w : Writer K) (code : Option CStr) (continent name : Option CStr) : Res (Writer K) :=
  match countryNew code with
  | .error e => .error e
  | .ok c =>
    let c := ignoreErr (countrySetContinent c continent) c
    .ok { w with countries := countryListAppend w.countries { c with name := name } }

/-- `loc_writer_add_network`, writer.c:251-261, for a network that was built already: error number
    and writer. -/
def addNetwork {K : Type} (w : Writer K) (n : Network) : Res (Nat × Writer K) :=
  match treeAdd w.networks n with
  | .error e => .error e
  | .ok (r, t) => .ok (r, { w with networks := t })

/-- What happens inside of OpenSSL when a message is signed (writer.c:566-634): a signature;
    `EVP_DigestSignInit` or one of the updates with magic or header returned `r ≠ 1`; a later call
    failed. -/
inductive SignOut
  | ok (sig : Bytes)
  | early (r : Int)
  | late

/-- Everything a write depends on besides the writer: the value of `__builtin_ctz(0)`, the prefix
    read at network-tree.c:434, the clock, the four bytes of every network record nobody
    initialises (two alignment bytes and `padding`, network.c:648-660 and writer.c:408), the initial
    content of the continent code of `block` (writer.c:531), and OpenSSL. -/
structure WEnv (K : Type) where
  ctz0 : Nat
  reread : Network → Nat
  now : Nat
  junk : Nat → Byte × Byte × Byte × Byte
  junkContinent : Byte × Byte
  sign : K → Bytes → SignOut

/-- `align_page_boundary`, writer.c:283-287: the bytes written at offset `off`. -/
def padding (off : Nat) : Bytes := List.replicate ((pageSize - off % pageSize) % pageSize) 0

/-- `loc_as_to_database_v1`, as.c:132-141 -/
def asRecord (a : AS) (p : Pool) : Res (Bytes × Pool) :=
  match poolAdd p (match a.name with | some s => s | none => []) with
  | .error e => .error e
  | .ok (off, p) => .ok (be32 a.number.toNat ++ be32 off, p)

/-- The loop of `loc_database_write_as_section`, writer.c:318-332 -/
def writeAses : List AS → Pool → Res (Bytes × Pool)
  | [], p => .ok ([], p)
  | a :: l, p =>
    match asRecord a p with
    | .error e => .error e
    | .ok (b, p) =>
      match writeAses l p with
      | .error e => .error e
      | .ok (bs, p) => .ok (b ++ bs, p)

/-- `struct loc_database_network_node_v1` in memory: zero, one, network -/
structure NodeRec where
  zero : Nat
  one : Nat
  net : Nat
  deriving DecidableEq, Repr

/-- writer.c:460-485: the bytes of a node -/
def nodeBytes (r : NodeRec) : Bytes := be32 r.zero ++ be32 r.one ++ be32 r.net

/-- The loop of `loc_database_write_networks`, writer.c:432-489: the queue of nodes, `index` and
    `network_index`.  Returns the nodes in the order they are written and the queue of networks.
    `fuel` bounds the number of rounds. -/
def bfsLoop : Nat → List Tree → Nat → Nat → Res (List NodeRec × List Network)
  | 0, _, _, _ => .error .diverge
  | _ + 1, [], _, _ => .ok ([], [])
  | _ + 1, .nil :: _, _, _ => .error .oob
  | fuel + 1, .node _ net z o :: q, index, netIndex =>
    let indexZero := if z.isNil then 0 else index + 1
    let index := if z.isNil then index else index + 1
    let indexOne := if o.isNil then 0 else index + 1
    let index := if o.isNil then index else index + 1
    let q := q ++ (if z.isNil then [] else [z]) ++ (if o.isNil then [] else [o])
    match net with
    | some n =>
      match bfsLoop fuel q index (netIndex + 1) with
      | .error e => .error e
      | .ok (recs, nets) => .ok (⟨indexZero, indexOne, netIndex⟩ :: recs, n :: nets)
    | none =>
      match bfsLoop fuel q index netIndex with
      | .error e => .error e
      | .ok (recs, nets) => .ok (⟨indexZero, indexOne, 0xffffffff⟩ :: recs, nets)

/-- Number of nodes (used as fuel). -/
def Tree.size : Tree → Nat
  | .nil => 0
  | .node _ _ z o => 1 + z.size + o.size

/-- `loc_network_to_database_v1`, network.c:648-660: country code, alignment, ASN, flags, padding.
    `j` are the uninitialised bytes. -/
def netRecord (j : Byte × Byte × Byte × Byte) (n : Network) : Bytes :=
  [n.cc0, n.cc1, j.1, j.2.1] ++ be32 n.asn.toNat ++ be16 n.flags.toNat ++ [j.2.2.1, j.2.2.2]

/-- The loop of `loc_database_write_networks`, writer.c:502-515 -/
def netRecords (junk : Nat → Byte × Byte × Byte × Byte) : Nat → List Network → Bytes
  | _, [] => []
  | k, n :: l => netRecord (junk k) n ++ netRecords junk (k + 1) l

/-- `loc_country_to_database_v1`, country.c:175-194.  `prev` is the continent code that is in the block
    before (from the previous country, or uninitialised). -/
def countryRecord (c : Country) (prev : Byte × Byte) (p : Pool) : Res (Bytes × (Byte × Byte) × Pool) :=
  let k := if c.k0 ≠ 0 then (c.k0, c.k1) else prev
  match c.name with
  | none => .ok ([c.c0, c.c1, k.1, k.2] ++ be32 0, k, p)
  | some s =>
    match poolAdd p s with
    | .error e => .error e
    | .ok (off, p) => .ok ([c.c0, c.c1, k.1, k.2] ++ be32 off, k, p)

/-- The loop of `loc_database_write_countries`, writer.c:534-543 -/
def writeCountries : List Country → Byte × Byte → Pool → Res (Bytes × Pool)
  | [], _, p => .ok ([], p)
  | c :: l, prev, p =>
    match countryRecord c prev p with
    | .error e => .error e
    | .ok (b, prev, p) =>
      match writeCountries l prev p with
      | .error e => .error e
      | .ok (bs, p) => .ok (b ++ bs, p)

/-- `struct loc_database_header_v1`, format.h:46-84.  The signature fields are given by their used
    part. -/
structure Header where
  createdAt : Nat
  vendor : Nat
  description : Nat
  license : Nat
  asOff : Nat
  asLen : Nat
  netOff : Nat
  netLen : Nat
  treeOff : Nat
  treeLen : Nat
  countryOff : Nat
  countryLen : Nat
  poolOff : Nat
  poolLen : Nat
  deriving DecidableEq, Repr

/-- The part of the header before the signatures. -/
def headerFields (h : Header) : Bytes :=
  be64 h.createdAt ++ be32 h.vendor ++ be32 h.description ++ be32 h.license ++
  be32 h.asOff ++ be32 h.asLen ++ be32 h.netOff ++ be32 h.netLen ++ be32 h.treeOff ++ be32 h.treeLen ++
  be32 h.countryOff ++ be32 h.countryLen ++ be32 h.poolOff ++ be32 h.poolLen

/-- A 2048 byte signature field. -/
def sigField (s : Bytes) : Bytes := s ++ List.replicate (sigMax - s.length) 0

/-- The bytes of the header; signature lengths, signatures, padding (writer.c:667-683, 749-764). -/
def headerBytes (h : Header) (sig1 sig2 : Bytes) : Bytes :=
  headerFields h ++ be16 sig1.length ++ be16 sig2.length ++ sigField sig1 ++ sigField sig2 ++ List.replicate 32 0

/-- `loc_writer_create_signature`, writer.c:553-643, and the assignment of the length before the call
    (writer.c:730, 741): signature buffer and length.  A return value of 0 counts as success. -/
def createSignature {K : Type} (sign : K → Bytes → SignOut) (key : K) (msg : Bytes) (buf : Bytes) : Res (Bytes × Nat) :=
  match sign key msg with
  | .ok s => if s.length ≤ sigMax then .ok (s ++ buf.drop s.length, s.length) else .error (.err EPERM)
  | .early r => if r = 0 then .ok (buf, sigMax) else .error (.err r.natAbs)
  | .late => .error (.err EPERM)

/-- writer.c:727-736 / 738-747: sign with a key, if there is one. -/
def signWith {K : Type} (sign : K → Bytes → SignOut) (key : Option K) (msg : Bytes) (buf : Bytes) (len : Nat) : Res (Bytes × Nat) :=
  match key with
  | none => .ok (buf, len)
  | some k => createSignature sign k msg buf

/-- `make_magic`, writer.c:273-281 -/
def magic : Bytes := magicBytes ++ [1]

/-- writer.c:648-660: the version to write -/
def writeVersion (version : Nat) : Res Unit :=
  if version = 0 then .ok () else if version = 1 then .ok () else .error (.err EPERM)

/-- The sections of a file, in the order they are written. -/
structure Sections where
  ases : Bytes
  tree : Bytes
  nets : Bytes
  countries : Bytes
  pool : Bytes

/-- writer.c:706-724 with writer.c:289-344, 391-522, 524-551: the sections and the writer afterwards (its
    tree is cleaned, its list of ASes sorted, its pool extended). -/
def writeSections {K : Type} (e : WEnv K) (w : Writer K) : Res (Sections × Writer K) :=
  let ases := asListSort w.ases
  match writeAses ases w.pool with
  | .error x => .error x
  | .ok (asBytes, pool) =>
    match treeCleanup e.ctz0 e.reread w.networks with
    | .error x => .error x
    | .ok t =>
      match bfsLoop (t.size + 1) [t] 0 0 with
      | .error x => .error x
      | .ok (recs, nets) =>
        match writeCountries w.countries e.junkContinent pool with
        | .error x => .error x
        | .ok (ctBytes, pool) =>
          .ok (⟨asBytes, recs.flatMap nodeBytes, netRecords e.junk 0 nets, ctBytes, pool.data⟩,
            { w with ases := ases, networks := t, pool := pool })

/-- Where the sections go: the offset before each section, after padding (`offset` in writer.c:686-724). -/
def asOffset : Nat := magicSize + headerSize + (padding (magicSize + headerSize)).length
def treeOffset (s : Sections) : Nat := asOffset + s.ases.length + (padding (asOffset + s.ases.length)).length
def netOffset (s : Sections) : Nat := treeOffset s + s.tree.length + (padding (treeOffset s + s.tree.length)).length
def countryOffset (s : Sections) : Nat := netOffset s + s.nets.length + (padding (netOffset s + s.nets.length)).length
def poolOffset (s : Sections) : Nat :=
  countryOffset s + s.countries.length + (padding (countryOffset s + s.countries.length)).length

/-- Everything behind the header: padding and sections. -/
def bodyBytes (s : Sections) : Bytes :=
  padding (magicSize + headerSize) ++
  (s.ases ++ padding (asOffset + s.ases.length)) ++
  (s.tree ++ padding (treeOffset s + s.tree.length)) ++
  (s.nets ++ padding (netOffset s + s.nets.length)) ++
  (s.countries ++ padding (countryOffset s + s.countries.length)) ++
  s.pool

/-- The header without signatures. -/
def makeHeader {K : Type} (e : WEnv K) (w : Writer K) (s : Sections) : Header :=
  ⟨e.now, w.vendor, w.description, w.license, asOffset, s.ases.length, netOffset s, s.nets.length,
   treeOffset s, s.tree.length, countryOffset s, s.countries.length, poolOffset s, s.pool.length⟩

/-- `loc_writer_write`, writer.c:645-786: the writer and the content of the file afterwards (`none`: an
    error was returned).  `old` is the content of the file before: what lies behind the new database
    stays in the file.  All system calls succeed.  When signing fails the signature buffers are in an
    unspecified state, which is not observable: they are set again before every use. -/
def writerWrite {K : Type} (e : WEnv K) (w : Writer K) (old : Bytes) (version : Nat) : Res (Writer K × Option Bytes) :=
  match writeVersion version with
  | .error _ => .ok (w, none)
  | .ok _ =>
    match writeSections e w with
    | .error x => .error x
    | .ok (s, w) =>
      let h := makeHeader e w s
      let rest := bodyBytes s ++ old.drop (magicSize + headerSize + (bodyBytes s).length)
      let msg := magic ++ headerBytes h [] [] ++ rest
      match signWith e.sign w.key1 msg w.sig1 w.sig1Len with
      | .error _ => .ok (w, none)
      | .ok (sig1, len1) =>
        match signWith e.sign w.key2 msg w.sig2 w.sig2Len with
        | .error _ => .ok (w, none)
        | .ok (sig2, len2) =>
          .ok ({ w with sig1 := sig1, sig1Len := len1, sig2 := sig2, sig2Len := len2 },
            some (magic ++ headerBytes h (sig1.take len1) (sig2.take len2) ++ rest))

end Loc
