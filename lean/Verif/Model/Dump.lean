import Verif.Model.Import
import Verif.Model.Enumerator
import Verif.Model.Formats
/-
Model of `location dump` (`handle_dump` in `src/scripts/location.in`), of the functions that read files in blocks
(`iterate_over_blocks` and `read_blocks` in `src/scripts/location-importer.in`) and of `location-importer update-overrides`
(`handle_update_overrides`).

Text is represented by its bytes.  Simplified: the white space and line breaks outside of ASCII that Python knows (such as
U+00A0) are treated like letters; lines that are not valid UTF-8 are not converted from Latin 1.
-/
namespace Loc

/-! ## Strings of Python -/

/-- `str.isspace` for ASCII -/
def pySpace (c : Byte) : Bool := c == 32 || (decide (9 ≤ c.toNat) && decide (c.toNat ≤ 13)) || (decide (28 ≤ c.toNat) && decide (c.toNat ≤ 31))

/-- `str.rstrip` -/
def pyRstrip (s : Bytes) : Bytes := (s.reverse.dropWhile pySpace).reverse

/-- `str.strip` -/
def pyStrip (s : Bytes) : Bytes := pyRstrip (s.dropWhile pySpace)

/-- `str.lower` for ASCII -/
def pyLower (s : Bytes) : Bytes := s.map toLower

/-- The lines of a file opened in binary mode; each but the last ends with a newline. -/
def fileLines : Bytes → List Bytes
  | [] => []
  | c :: rest =>
    if c = 10 then [10] :: fileLines rest
    else match fileLines rest with
      | [] => [[c]]
      | l :: ls => (c :: l) :: ls

/-- `str.splitlines` for ASCII; the second argument is the current line, reversed. -/
def splitLines (cur : Bytes) : Bytes → List Bytes
  | [] => if cur.isEmpty then [] else [cur.reverse]
  | c :: rest =>
    if c = 13 then
      match rest with
      | 10 :: rest => cur.reverse :: splitLines [] rest
      | rest => cur.reverse :: splitLines [] rest
    else if c = 10 ∨ c = 11 ∨ c = 12 ∨ c = 28 ∨ c = 29 ∨ c = 30 then cur.reverse :: splitLines [] rest
    else splitLines (c :: cur) rest

/-! ## location dump -/

/-- "net:" -/
def strNet : CStr := [110, 101, 116, 58]
/-- "country:" -/
def strCountry : CStr := [99, 111, 117, 110, 116, 114, 121, 58]
/-- "aut-num:" -/
def strAutNum : CStr := [97, 117, 116, 45, 110, 117, 109, 58]
/-- "name:" -/
def strName : CStr := [110, 97, 109, 101, 58]
/-- "is-anonymous-proxy:" -/
def strProxy : CStr := [105, 115, 45, 97, 110, 111, 110, 121, 109, 111, 117, 115, 45, 112, 114, 111, 120, 121, 58]
/-- "is-satellite-provider:" -/
def strSatellite : CStr := [105, 115, 45, 115, 97, 116, 101, 108, 108, 105, 116, 101, 45, 112, 114, 111, 118, 105, 100, 101, 114, 58]
/-- "is-anycast:" -/
def strAnycast : CStr := [105, 115, 45, 97, 110, 121, 99, 97, 115, 116, 58]
/-- "drop:" -/
def strDropKey : CStr := [100, 114, 111, 112, 58]
/-- "yes" -/
def strYes : CStr := [121, 101, 115]
/-- "no" -/
def strNo : CStr := [110, 111]
/-- "#", newline, "# Location Database Export", newline, "#", newline -/
def strExportOf : CStr :=
  [35, 10, 35, 32, 76, 111, 99, 97, 116, 105, 111, 110, 32, 68, 97, 116, 97, 98, 97, 115, 101, 32, 69, 120, 112, 111, 114, 116, 10, 35, 10]
/-- "# Generated: " -/
def strGenerated : CStr := [35, 32, 71, 101, 110, 101, 114, 97, 116, 101, 100, 58, 32]
/-- "# Vendor:    " -/
def strVendor : CStr := [35, 32, 86, 101, 110, 100, 111, 114, 58, 32, 32, 32, 32]
/-- "# License:   " -/
def strLicense : CStr := [35, 32, 76, 105, 99, 101, 110, 115, 101, 58, 32, 32, 32]

/-- `"%-24s %s\n" % (key, value)`, location.in:338 -/
def dumpLine (key value : CStr) : Bytes := key ++ List.replicate (24 - key.length) 32 ++ 32 :: value ++ [10]

/-- One of location.in:347-351: `db.vendor` and `db.license` are `None` or empty if they are not set. -/
def dumpComment (start : CStr) (value : Option CStr) : Bytes :=
  match value with
  | some v => if v.isEmpty then [] else start ++ v ++ [10]
  | none => []

/-- location.in:355-360 -/
def dumpDescription (description : Option CStr) : Bytes :=
  match description with
  | some d => if d.isEmpty then [] else ((splitLines [] d).flatMap fun line => pyRstrip (35 :: 32 :: line) ++ [10]) ++ [35, 10]
  | none => []

/-- location.in:340-360.  `generated` is the time of creation as text. -/
def dumpHead (generated : CStr) (vendor license description : Option CStr) : Bytes :=
  strExportOf ++ strGenerated ++ generated ++ [10] ++ dumpComment strVendor vendor ++ dumpComment strLicense license ++ [35, 10] ++
    dumpDescription description

/-- The lines of an AS, location.in:365-367 -/
def dumpAs (number : Nat) (name : CStr) : Bytes := 10 :: dumpLine strAutNum ([65, 83] ++ decStr number) ++ dumpLine strName name

/-- location.in:369-374 -/
def dumpFlags : List (BitVec 32 × CStr) :=
  [(FLAG_ANONYMOUS_PROXY, strProxy), (FLAG_SATELLITE_PROVIDER, strSatellite), (FLAG_ANYCAST, strAnycast), (FLAG_DROP, strDropKey)]

/-- The lines of a network, location.in:378-389; the text of the network is that of `loc_network_str`. -/
def dumpNetwork (n : Network) : Bytes :=
  10 :: dumpLine strNet (netText n) ++
  (if (countryCode n).isEmpty then [] else dumpLine strCountry (countryCode n)) ++
  (if n.asn = 0 then [] else dumpLine strAutNum (decStr n.asn.toNat)) ++
  dumpFlags.flatMap fun f => if hasFlag n f.1 ≠ 0 then dumpLine f.2 strYes else []

/-- The loop over the ASes, location.in:364-367 (see `pyAsName`) -/
def dumpAses : List AS → Res Bytes
  | [] => .ok []
  | a :: rest =>
    match pyAsName a with
    | .error e => .error e
    | .ok name =>
      match dumpAses rest with
      | .error e => .error e
      | .ok text => .ok (dumpAs a.number.toNat name ++ text)

/-- `handle_dump`, location.in:333-389.  `fuel` bounds the number of ASes and networks; an enumeration that fails ends like
    one that is over (`DatabaseEnumerator_next`, python/database.c). -/
def handleDump (fuel : Nat) (generated : CStr) (db : Db) : Res Bytes :=
  match dbVendor db with
  | .error e => .error e
  | .ok vendor =>
  match dbLicense db with
  | .error e => .error e
  | .ok license =>
  match dbDescription db with
  | .error e => .error e
  | .ok description =>
  match drain (nextAs db none) fuel 0 with
  | .error e => .error e
  | .ok (ases, _, _) =>
  match dumpAses ases with
  | .error e => .error e
  | .ok text =>
  match drain (nextNetwork db) fuel (enumNew ⟨0, none, none, 0⟩) with
  | .error e => .error e
  | .ok (networks, _, _) => .ok (dumpHead generated vendor license description ++ text ++ networks.flatMap dumpNetwork)

/-! ## Files in blocks -/

/-- `iterate_over_blocks`, location-importer.in:2528-2569; `block` are the lines of the current block. -/
def iterBlocks (block : List Bytes) : List Bytes → List (List Bytes)
  | [] => if block.isEmpty then [] else [block]
  | line :: rest =>
    if line.head? = some 35 ∨ line.head? = some 37 then iterBlocks block rest
    else
      let text := pyRstrip (line.takeWhile (· ≠ 35))
      let comment := (line.dropWhile (· ≠ 35)).drop 1
      if !comment.isEmpty && text.isEmpty then iterBlocks block rest
      else if !text.isEmpty then iterBlocks (block ++ [text]) rest
      else if block.isEmpty then iterBlocks [] rest
      else block :: iterBlocks [] rest

/-- What `read_blocks` stores under a key. -/
inductive BlockValue
  | text (s : Bytes)
  | texts (l : List Bytes)
  deriving DecidableEq, Repr

/-- A `dict`, in order of insertion -/
abbrev BlockData := List (Bytes × BlockValue)

/-- `data.get(key)` -/
def dictGet (d : BlockData) (key : Bytes) : Option BlockValue := (d.find? fun x => decide (x.1 = key)).map (·.2)

/-- `data[key] = value` -/
def dictSet (d : BlockData) (key : Bytes) (value : BlockValue) : BlockData :=
  match d with
  | [] => [(key, value)]
  | x :: rest => if x.1 = key then (key, value) :: rest else x :: dictSet rest key value

/-- The value under "network" in blocks of type "geofeed", location-importer.in:2514-2518 -/
def appendTo (old : Option BlockValue) (value : Bytes) : BlockValue :=
  match old with
  | some (.texts l) => .texts (l ++ [value])
  | _ => .texts [value]

/-- One line of a block, location-importer.in:2506-2524, once the type is known -/
def storeLine (type : Bytes) (d : BlockData) (key value : Bytes) : BlockData :=
  if type = [103, 101, 111, 102, 101, 101, 100] ∧ key = [110, 101, 116, 119, 111, 114, 107] then dictSet d key (appendTo (dictGet d key) value)
  else dictSet d key (.text value)

/-- `line.split(":", 1)`, unpacked into two variables, which raises a `ValueError` if there is no colon -/
def splitKey (line : Bytes) : Call (Bytes × Bytes) :=
  if line.contains 58 then .ret (line.takeWhile (· ≠ 58), (line.dropWhile (· ≠ 58)).drop 1) else .exc .value

/-- The loop of location-importer.in:2505-2524; `type` is not set in front of the first line. -/
def readBlock (type : Option Bytes) (d : BlockData) : List Bytes → Call (Option Bytes × BlockData)
  | [] => .ret (type, d)
  | line :: rest =>
    match splitKey line with
    | .exc x => .exc x
    | .ret (key, value) =>
      let type := match type with
        | none => key
        | some t => t
      readBlock (some type) (storeLine type d key (pyStrip value)) rest

/-- `read_blocks`, location-importer.in:2500-2526 (all blocks at once; it is a generator, so an exception comes after the
    blocks in front of it) -/
def readBlocks : List (List Bytes) → Call (List (Option Bytes × BlockData))
  | [] => .ret []
  | block :: rest =>
    match readBlock none [] block with
    | .exc x => .exc x
    | .ret b =>
      match readBlocks rest with
      | .exc x => .exc x
      | .ret l => .ret (b :: l)

/-- `read_blocks` on a file -/
def readFile (file : Bytes) : Call (List (Option Bytes × BlockData)) := readBlocks (iterBlocks [] (fileLines file))

/-! ## location-importer update-overrides -/

/-- `_parse_bool`, location-importer.in:2446-2466 -/
def parseBool (d : BlockData) (key : Bytes) : Option Bool :=
  match dictGet d key with
  | some (.text val) =>
    if pyLower val = strYes ∨ pyLower val = [49] then some true
    else if pyLower val = strNo ∨ pyLower val = [48] then some false
    else none
  | _ => none

/-- `block.get(key)` as a string -/
def textOf (d : BlockData) (key : Bytes) : Option Bytes :=
  match dictGet d key with
  | some (.text s) => some s
  | _ => none

/-- The value of a string of decimal digits -/
def digitsOf (s : Bytes) : Option Nat :=
  if s.isEmpty then none else (s.mapM decVal).map fun ds => ds.foldl (fun acc d => acc * 10 + d) 0

/-- `ipaddress.ip_network(text, strict=False)`, without the exception.  Simplified: netmasks in place of a prefix length
    and scope ids are not accepted; IPv6 networks of IPv4-mapped addresses do not occur. -/
def ipNetwork (text : Bytes) : Option Network :=
  match parseText (text.takeWhile (· ≠ 47)) with
  | none => none
  | some (a, family) =>
    if text.contains 47 then
      match digitsOf ((text.dropWhile (· ≠ 47)).drop 1) with
      | none => none
      | some p => if p ≤ familyBitLength family then (newNetwork a p).toOption else none
    else (newNetwork a (familyBitLength family)).toOption

/-- "is-anonymous-proxy" and so on: the keys without the colon -/
def keyOf (s : CStr) : Bytes := s.dropLast

/-- The columns that both tables have, location-importer.in:2046-2050, 2086-2090 -/
def marksOf (d : BlockData) : Marks :=
  ⟨textOf d (keyOf strCountry), parseBool d (keyOf strProxy), parseBool d (keyOf strSatellite), parseBool d (keyOf strAnycast),
    parseBool d (keyOf strDropKey)⟩

/-- The tables `network_overrides` and `autnum_overrides` -/
structure OverrideTables where
  networks : List (Network × Marks)
  autnums : List (Nat × Option CStr × Marks)
  deriving DecidableEq, Repr

/-- A block of type "net", location-importer.in:2010-2051: `ON CONFLICT (network) DO NOTHING` -/
def overrideNet (t : OverrideTables) (d : BlockData) : OverrideTables :=
  match (textOf d (keyOf strNet)).bind ipNetwork with
  | none => t
  | some n =>
    if netPrefix n = 0 then t
    else if t.networks.any fun x => decide (x.1 = n) then t
    else { t with networks := t.networks ++ [(n, marksOf d)] }

/-- A block of type "aut-num", location-importer.in:2053-2091: the database server converts the number to a `bigint`.
    Simplified: signs are refused. -/
def overrideAs (t : OverrideTables) (d : BlockData) : Call OverrideTables :=
  match textOf d (keyOf strAutNum) with
  | none => .ret t
  | some autnum =>
    if autnum.take 2 ≠ [65, 83] then .ret t
    else match digitsOf (autnum.drop 2) with
      | none => .exc .database
      | some number =>
        if 2 ^ 63 ≤ number then .exc .database
        else if t.autnums.any fun x => decide (x.1 = number) then .ret t
        else .ret { t with autnums := t.autnums ++ [(number, textOf d (keyOf strName), marksOf d)] }

/-- The loop over the blocks, location-importer.in:2009-2154.  Geofeeds are not modelled. -/
def overrideBlocks (t : OverrideTables) : List (Option Bytes × BlockData) → Call OverrideTables
  | [] => .ret t
  | (type, d) :: rest =>
    if type = some (keyOf strNet) then overrideBlocks (overrideNet t d) rest
    else if type = some (keyOf strAutNum) then
      match overrideAs t d with
      | .exc x => .exc x
      | .ret t => overrideBlocks t rest
    else overrideBlocks t rest

/-- The loop over the files.  Simplified: a file is read to its end before its blocks are stored, so that the exception may
    be another one if a file has several errors. -/
def overrideFiles (t : OverrideTables) : List Bytes → Call OverrideTables
  | [] => .ret t
  | file :: rest =>
    match readFile file with
    | .exc x => .exc x
    | .ret blocks =>
      match overrideBlocks t blocks with
      | .exc x => .exc x
      | .ret t => overrideFiles t rest

/-- `handle_update_overrides`, location-importer.in:1996-2154: the tables are emptied first; an exception rolls the
    transaction back. -/
def updateOverrides (old : OverrideTables) (files : List Bytes) : Call Unit × OverrideTables :=
  match overrideFiles ⟨[], []⟩ files with
  | .exc x => (.exc x, old)
  | .ret t => (.ret (), t)

end Loc
