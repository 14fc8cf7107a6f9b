import Verif.Model.Writer
/-
Model of `src/database.c`: opening, verifying, metadata, AS, country and network lookup.
-/
namespace Loc

/-- `struct loc_database`, database.c:64-97.  Sections are given by their offset in the file and the
    number of objects.  Pointers into the mapped file are offsets. -/
structure Db where
  file : Bytes
  createdAt : Nat
  vendor : Nat
  description : Nat
  license : Nat
  sig1Off : Nat
  sig1Len : Nat
  sig2Off : Nat
  sig2Len : Nat
  poolOff : Nat
  poolLen : Nat
  asOff : Nat
  asCount : Nat
  nodeOff : Nat
  nodeCount : Nat
  netOff : Nat
  netCount : Nat
  countryOff : Nat
  countryCount : Nat

/-- `__loc_database_check_boundaries`, database.c:150-167: `db->length - length` is computed with
    unsigned 64 bit numbers. -/
def checkBoundaries (fileLength off length : Nat) : Bool :=
  decide (off ≤ (fileLength + 2 ^ 64 - length) % 2 ^ 64)

/-- `loc_database_object`, database.c:172-185: the bytes of the n-th object (`none`: `NULL`).  The
    caller reads the whole object. -/
def dbObject (file : Bytes) (base size n : Nat) : Res (Option Bytes) :=
  if !checkBoundaries file.length (base + n * size) size then .ok none
  else match rd file (base + n * size) size with
    | .error e => .error e
    | .ok b => .ok (some b)

/-- `loc_database_check_magic`, database.c:200-233, with `loc_database_version_supported`,
    database.c:187-198: error number, 0 on success. -/
def checkMagic (file : Bytes) : Nat :=
  if file.length < magicSize then ENOMSG
  else if file.take 7 = magicBytes then
    (if (file.drop 7).take 1 = [1] then 0 else ENOTSUP)
  else ENOMSG

/-- A big-endian field of the header at offset `off` of the header, once the header is read. -/
def field (header : Bytes) (off len : Nat) : Nat := beVal ((header.drop off).take len)

/-- `loc_database_read_header_v1`, database.c:307-385, with `loc_database_read_signature` (lines 286-305)
    and `loc_database_map_objects` (lines 276-284) -/
def readHeader (file : Bytes) : Res Db :=
  if !checkBoundaries file.length magicSize headerSize then .error (.err EFAULT)
  else match rd file magicSize headerSize with
    | .error e => .error e
    | .ok h =>
      if field h 60 2 > sigMax then .error (.err EINVAL)
      else if field h 62 2 > sigMax then .error (.err EINVAL)
      else if !checkBoundaries file.length (field h 52 4) (field h 56 4) then .error (.err EFAULT)
      else .ok {
        file := file
        createdAt := field h 0 8
        vendor := field h 8 4
        description := field h 12 4
        license := field h 16 4
        sig1Off := magicSize + 64
        sig1Len := field h 60 2
        sig2Off := magicSize + 64 + sigMax
        sig2Len := field h 62 2
        poolOff := field h 52 4
        poolLen := field h 56 4
        asOff := field h 20 4
        asCount := field h 24 4 / asSize
        netOff := field h 28 4
        netCount := field h 32 4 / netSize
        nodeOff := field h 36 4
        nodeCount := field h 40 4 / nodeSize
        countryOff := field h 44 4
        countryCount := field h 48 4 / countrySize }

/-- `loc_database_new`, database.c:482-514, with `loc_database_open`, database.c:424-455.  The file is a
    list of bytes; the system calls succeed. -/
def dbOpen (file : Bytes) : Res Db :=
  if checkMagic file ≠ 0 then .error (.err (checkMagic file))
  else readHeader file

/-- `loc_stringpool_get`, stringpool.c:157-166, on the mapped pool, followed by reading the string:
    the reader stops at the first NUL byte, wherever it is. -/
def dbString (db : Db) (off : Nat) : Res (Option CStr) :=
  if off ≥ db.poolLen then .ok none
  else match cstrAt db.file (db.poolOff + off) with
    | .error e => .error e
    | .ok s => .ok (some s)

/-- `loc_database_get_vendor`, `_description`, `_license`, database.c:709-719 -/
def dbVendor (db : Db) : Res (Option CStr) := dbString db db.vendor
def dbDescription (db : Db) : Res (Option CStr) := dbString db db.description
def dbLicense (db : Db) : Res (Option CStr) := dbString db db.license

/-- What `EVP_DigestVerifyFinal` may return. -/
inductive VerifyOut
  | valid
  | invalid
  | error
  deriving DecidableEq, Repr

/-- The public key side of OpenSSL: `key = none`: the key cannot be parsed; `ready = false`: one of the
    init/update calls fails; `check` verifies a signature of a message.  (The context can be
    finalised twice: `EVP_DigestVerifyFinal` works on a copy.) -/
structure VEnv (P : Type) where
  key : Option P
  ready : Bool
  check : P → Bytes → Bytes → VerifyOut

/-- What is fed into the verification, database.c:566-642: the magic, the header with the four signature
    fields cleared, the rest of the file. -/
def verifyMessage (file : Bytes) : Bytes :=
  file.take magicSize ++
  ((file.drop magicSize).take 60 ++ List.replicate 4 0 ++ List.replicate sigMax 0 ++ List.replicate sigMax 0 ++
    (file.drop (magicSize + 64 + 2 * sigMax)).take 32) ++
  file.drop (magicSize + headerSize)

/-- database.c:647-665 / 667-685: check one signature, if there is one. -/
def checkSignature {P : Type} (check : P → Bytes → Bytes → VerifyOut) (key : P) (file : Bytes) (off len : Nat) :
    Res (Option Bool) :=
  if len = 0 then .ok (some false)
  else match rd file off len with
    | .error e => .error e
    | .ok sig =>
      match check key (verifyMessage file) sig with
      | .valid => .ok (some true)
      | .invalid => .ok (some false)
      | .error => .ok none

/-- `loc_database_verify`, database.c:531-703: the returned number (0: a signature is valid).  The data
    pointers tested in lines 535-538 are never `NULL`. -/
def dbVerify {P : Type} (v : VEnv P) (db : Db) : Res Int :=
  match v.key with
  | none => .ok (-1)
  | some key =>
    if !v.ready then .ok 1
    else if db.file.length < magicSize then .ok 1
    else if db.file.length < magicSize + headerSize then .ok 1
    else
      match checkSignature v.check key db.file db.sig1Off db.sig1Len with
      | .error e => .error e
      | .ok none => .ok (-1)
      | .ok (some ok1) =>
        match checkSignature v.check key db.file db.sig2Off db.sig2Len with
        | .error e => .error e
        | .ok none => .ok (-1)
        | .ok (some ok2) => .ok (if ok1 || ok2 then 0 else 1)

/-- `loc_as_new_from_database_v1`, as.c:114-130 -/
def asFromRecord (db : Db) (b : Bytes) : Res AS :=
  match dbString db (field b 4 4) with
  | .error e => .error e
  | .ok name => .ok ⟨BitVec.ofNat 32 (field b 0 4), name⟩

/-- `loc_database_fetch_as`, database.c:726-757: `none` is the error return 1 -/
def fetchAs (db : Db) (pos : Nat) : Res (Option AS) :=
  if pos ≥ db.asCount then .ok none
  else match dbObject db.file db.asOff asSize pos with
    | .error e => .error e
    | .ok none => .ok none
    | .ok (some b) =>
      match asFromRecord db b with
      | .error e => .error e
      | .ok a => .ok (some a)

/-- The loop of `loc_database_get_as`, database.c:769-799 (`off_t` is 64 bits wide and does not
    overflow).  `none`: not found or error (return value 1 in both cases). -/
def getAsLoop (db : Db) (number : BitVec 32) : Nat → Int → Int → Res (Option AS)
  | 0, _, _ => .error .diverge
  | fuel + 1, lo, hi =>
    if lo ≤ hi then
      let i := (lo + hi) / 2
      match fetchAs db i.toNat with
      | .error e => .error e
      | .ok none => .ok none
      | .ok (some a) =>
        if a.number = number then .ok (some a)
        else if a.number < number then getAsLoop db number fuel (i + 1) hi
        else getAsLoop db number fuel lo (i - 1)
    else .ok none

/-- `loc_database_get_as`, database.c:760-805 -/
def getAs (db : Db) (number : BitVec 32) : Res (Option AS) :=
  getAsLoop db number (db.asCount + 1) 0 (db.asCount - 1)

/-- `loc_country_new_from_database_v1`, country.c:144-173; `none`: error return -/
def countryFromRecord (db : Db) (b : Bytes) : Res (Option Country) :=
  match b with
  | c0 :: c1 :: k0 :: k1 :: _ =>
    match countryNew (some (ccString c0 c1)) with
    | .error _ => .ok none
    | .ok c =>
      let c := if k0 ≠ 0 then { c with k0 := k0, k1 := k1 } else c
      match dbString db (field b 4 4) with
      | .error e => .error e
      | .ok none => .ok (some c)
      | .ok (some s) => .ok (some { c with name := some s })
  | _ => .error .oob      -- records have eight bytes

/-- `loc_database_fetch_country`, database.c:972-1005 -/
def fetchCountry (db : Db) (pos : Nat) : Res (Option Country) :=
  if pos ≥ db.countryCount then .ok none
  else match dbObject db.file db.countryOff countrySize pos with
    | .error e => .error e
    | .ok none => .ok none
    | .ok (some b) => countryFromRecord db b

/-- `strcmp`: sign of the first difference, bytes compared as unsigned numbers. -/
def strcmp : CStr → CStr → Int
  | [], [] => 0
  | [], _ :: _ => -1
  | _ :: _, [] => 1
  | a :: s, b :: t => if a < b then -1 else if b < a then 1 else strcmp s t

/-- How `loc_database_get_country` ends: return value 0 with a country, 0 with `NULL` (nothing found,
    database.c:1058-1061), or an error. -/
inductive CountryOut
  | found (c : Country)
  | missing
  | failed
  deriving DecidableEq, Repr

/-- The loop of `loc_database_get_country`, database.c:1024-1056 -/
def getCountryLoop (db : Db) (code : CStr) : Nat → Int → Int → Res CountryOut
  | 0, _, _ => .error .diverge
  | fuel + 1, lo, hi =>
    if lo ≤ hi then
      let i := (lo + hi) / 2
      match fetchCountry db i.toNat with
      | .error e => .error e
      | .ok none => .ok .failed
      | .ok (some c) =>
        if strcmp code (countryGetCode c) = 0 then .ok (.found c)
        else if strcmp code (countryGetCode c) > 0 then getCountryLoop db code fuel (i + 1) hi
        else getCountryLoop db code fuel lo (i - 1)
    else .ok .missing

/-- `loc_database_get_country`, database.c:1008-1062 -/
def getCountry (db : Db) (code : Option CStr) : Res CountryOut :=
  if !ccIsValid code then .ok .failed
  else match code with
    | none => .ok .failed     -- excluded by `ccIsValid`
    | some s => getCountryLoop db s (db.countryCount + 1) 0 (db.countryCount - 1)

/-- How fetching a network ends: a network, an error with a positive number, or a negative one. -/
inductive FetchOut
  | got (n : Network)
  | soft
  | hard
  deriving DecidableEq, Repr

/-- `loc_network_new_from_database_v1`, network.c:662-702; `prefix -= 96` is unsigned 32 bit
    arithmetic. -/
def networkFromRecord (address : Addr) (p : Nat) (b : Bytes) : Res FetchOut :=
  match b with
  | c0 :: c1 :: _ =>
    let p := if isV4Mapped address then (p + 2 ^ 32 - 96) % 2 ^ 32 else p
    match newNetwork address p with
    | .error _ => .ok .soft
    | .ok n =>
      match setCountryCode n (some (ccString c0 c1)) with
      | .error _ => .ok .hard
      | .ok n =>
        .ok (.got (setFlag (setAsn n (BitVec.ofNat 32 (field b 4 4))) (BitVec.ofNat 32 (field b 8 2))))
  | _ => .error .oob      -- records have twelve bytes

/-- `loc_database_fetch_network`, database.c:808-842 -/
def fetchNetwork (db : Db) (address : Addr) (p pos : Nat) : Res FetchOut :=
  if pos ≥ db.netCount then .ok .soft
  else match dbObject db.file db.netOff netSize pos with
    | .error e => .error e
    | .ok none => .ok .soft
    | .ok (some b) => networkFromRecord address p b

/-- The three numbers of a node. -/
def nodeFromRecord (b : Bytes) : NodeRec := ⟨field b 0 4, field b 4 4, field b 8 4⟩

/-- Fetching a node, database.c:884-888 -/
def fetchNode (db : Db) (i : Nat) : Res (Option NodeRec) :=
  match dbObject db.file db.nodeOff nodeSize i with
  | .error e => .error e
  | .ok none => .ok none
  | .ok (some b) => .ok (some (nodeFromRecord b))

/-- How a lookup ends: return value 0 with `*network`, a positive or a negative number. -/
inductive LookupOut
  | ok (n : Option Network)
  | soft
  | hard
  deriving DecidableEq, Repr

/-- `__loc_database_lookup_handle_leaf`, database.c:848-874: `*network` afterwards; `none`: negative return
    value -/
def handleLeaf (db : Db) (a : Addr) (networkAddress : Addr) (p : Nat) (net : Nat) : Res (Option (Option Network)) :=
  match fetchNetwork db networkAddress p net with
  | .error e => .error e
  | .ok .soft => .ok (some none)
  | .ok .hard => .ok none
  | .ok (.got n) => if matchesAddress n a then .ok (some (some n)) else .ok (some none)

/-- `__loc_database_node_is_leaf`, database.c:844-846 -/
def isLeaf (r : NodeRec) : Bool := decide (r.net ≠ 0xffffffff)

/-- database.c:922-932: what a node does itself after nothing was found below. -/
def lookupHere (db : Db) (a : Addr) (networkAddress : Addr) (level : Nat) (node : NodeRec) : Res LookupOut :=
  if isLeaf node then
    match handleLeaf db a networkAddress level node.net with
    | .error e => .error e
    | .ok none => .ok .hard
    | .ok (some n) => .ok (.ok n)
  else .ok (.ok none)

/-- `__loc_database_lookup`, database.c:877-933.  The first argument is `128 - level`; at level 128 bit 128
    of the address is read and written, which is outside of its 16 octets. -/
def lookupLoop (db : Db) (a : Addr) : Nat → Addr → Nat → Res (LookupOut × Addr)
  | rem, na, nodeIndex =>
    match fetchNode db nodeIndex with
    | .error e => .error e
    | .ok none => .ok (.soft, na)
    | .ok (some node) =>
      match rem with
      | 0 => .error .oob
      | rem + 1 =>
        let level := 128 - (rem + 1)
        let bit := getBit a level
        let na := setBit na level bit
        let next := if bit then node.one else node.zero
        if next > 0 then
          if next ≥ db.nodeCount then .ok (.soft, na)
          else match lookupLoop db a rem na next with
            | .error e => .error e
            | .ok (.ok n, na) => .ok (.ok n, na)
            | .ok (.hard, na) => .ok (.hard, na)
            | .ok (.soft, na) =>
              match lookupHere db a na level node with
              | .error e => .error e
              | .ok r => .ok (r, na)
        else
          match lookupHere db a na level node with
          | .error e => .error e
          | .ok r => .ok (r, na)

/-- `loc_database_lookup`, database.c:935-958 -/
def lookup (db : Db) (a : Addr) : Res LookupOut :=
  match lookupLoop db a 128 (Vector.replicate 16 0) 0 with
  | .error e => .error e
  | .ok (r, _) => .ok r

end Loc
