import Verif.Model.Dump
/-
Model of `location-importer update-whois`: `handle_update_whois`, `_process_source` and the parsers that they call in
`src/scripts/location-importer.in`.

Text is represented by its bytes, with the simplifications of `Model/Dump.lean`.  Not modelled: the downloads (the content of
the files is given), the column `original_countries` (`write` does not read it), log messages, and files that cannot be decoded.
-/
namespace Loc

/-! ## Tables -/

/-- `INSERT INTO t … ON CONFLICT DO NOTHING` -/
def putNew {κ β : Type} [DecidableEq κ] (t : List (κ × β)) (k : κ) (v : β) : List (κ × β) :=
  if t.any fun x => decide (x.1 = k) then t else t ++ [(k, v)]

/-- `INSERT INTO t … ON CONFLICT (k) DO UPDATE SET …` -/
def putOver {κ β : Type} [DecidableEq κ] (t : List (κ × β)) (k : κ) (v : β) (set : β → β) : List (κ × β) :=
  if t.any fun x => decide (x.1 = k) then t.map fun x => if x.1 = k then (x.1, set x.2) else x else t ++ [(k, v)]

/-- The tables `networks` (network, country, source), `autnums` (number, name, source) and `network_geofeeds` (network and
    URL, source), location-importer.in:204-247, and the temporary tables `_autnums` (number, organization), `_organizations`
    (handle, name) and `_rirdata` (network, country), location-importer.in:916-931.  The first component is unique in each. -/
structure WhoisTables where
  networks : List (Network × Option CStr × CStr)
  autnums : List (Nat × CStr × CStr)
  geofeeds : List ((Network × CStr) × CStr)
  tmpAutnums : List (Nat × CStr)
  tmpOrgs : List (CStr × CStr)
  rirdata : List (Network × Option CStr)
  deriving DecidableEq, Repr

/-- What the parsers get from elsewhere: `is_global` of Python's networks, the country codes of the table `countries`
    (location-importer.in:880), and `_check_geofeed_url` (1227-1248). -/
structure WhoisEnv where
  isGlobal : Network → Bool
  countries : List CStr
  geofeedUrl : Bytes → Option Bytes

/-! ## Numbers and networks -/

/-- `str.upper` for ASCII -/
def pyUpper (s : Bytes) : Bytes := s.map fun c => if 97 ≤ c.toNat ∧ c.toNat ≤ 122 then c - 32 else c

/-- `int(s)`, without the exception.  Simplified: underscores between digits are not accepted. -/
def pyInt (s : Bytes) : Option Int :=
  match pyStrip s with
  | [] => none
  | c :: d =>
    if c = 43 then (digitsOf d).map Int.ofNat
    else if c = 45 then (digitsOf d).map fun k : Nat => -(k : Int)
    else (digitsOf (c :: d)).map Int.ofNat

/-- `ipaddress.ip_network("%s/%s" % (address, prefix), strict=False)`, without the exception; see `ipNetwork`. -/
def ipNetworkOf (address : Bytes) (p : Int) : Option Network :=
  match parseText address with
  | none => none
  | some (a, family) => if 0 ≤ p ∧ p ≤ familyBitLength family then (newNetwork a p.toNat).toOption else none

/-- `_check_parsed_network`, location-importer.in:1163-1212 -/
def checkNetwork (e : WhoisEnv) (n : Network) : Bool :=
  if !e.isGlobal n then false
  else if allZeroes n.first && allZeroes n.last then false
  else match n.family with
    | .inet6 => !decide (netPrefix n < 10)
    | .inet => !decide (netPrefix n < 7)

/-- `_check_parsed_asn`, location-importer.in:1214-1225, with `VALID_ASN_RANGES`, lines 46-50 -/
def checkAsn (asn : Int) : Bool :=
  [((1 : Int), (23455 : Int)), (23457, 64495), (131072, 4199999999)].any fun x => decide (x.1 ≤ asn) && decide (x.2 ≥ asn)

/-! ## Statistics of the registries -/

/-- The text in front of the first "|" and the text behind it -/
def cutBar (s : Bytes) : Option (Bytes × Bytes) :=
  if s.contains 124 then some (s.takeWhile (· ≠ 124), (s.dropWhile (· ≠ 124)).drop 1) else none

/-- `s.split("|")` -/
def splitBar : Bytes → List Bytes
  | [] => [[]]
  | c :: rest =>
    if c = 124 then [] :: splitBar rest
    else match splitBar rest with
      | [] => [[c]]
      | l :: ls => (c :: l) :: ls

/-- `line.split("|", 3)`, if there are four parts -/
def splitStat (line : Bytes) : Option (Bytes × Bytes × Bytes × Bytes) :=
  (cutBar line).bind fun x => (cutBar x.2).bind fun y => (cutBar y.2).map fun z => (x.1, y.1, z.1, z.2)

/-- The four or five parts that are unpacked in location-importer.in:1530-1541: address, prefix, status -/
def statFields (s : Bytes) : Option (Bytes × Bytes × Bytes) :=
  match splitBar s with
  | [address, p, _, status, _] => some (address, p, status)
  | [address, p, _, status] => some (address, p, status)
  | _ => none

/-- "asn" -/
def strAsn : CStr := [97, 115, 110]
/-- "ipv4" -/
def strIpv4 : CStr := [105, 112, 118, 52]
/-- "ipv6" -/
def strIpv6 : CStr := [105, 112, 118, 54]
/-- "assigned" -/
def strAssigned : CStr := [97, 115, 115, 105, 103, 110, 101, 100]
/-- "allocated" -/
def strAllocated : CStr := [97, 108, 108, 111, 99, 97, 116, 101, 100]

/-- location-importer.in:1556-1558: `32 - int(math.log(prefix, 2))`; the logarithm of a number that is not positive is a
    `ValueError`.  Simplified: the logarithm is rounded down exactly; `math.log` is exact enough below `2 ** 48`. -/
def statPrefix (type : Bytes) (p : Int) : Call Int :=
  if type = strIpv4 then
    if p ≤ 0 then .exc .value else .ret (32 - (p.toNat.log2 : Int))
  else .ret p

/-- `_parse_line`, location-importer.in:1498-1586.  The countries are not empty, see line 883. -/
def parseStat (e : WhoisEnv) (source : CStr) (t : WhoisTables) (line : Bytes) : Call WhoisTables :=
  if line.head? = some 50 then .ret t
  else if line.head? = some 35 then .ret t
  else match splitStat line with
  | none => .ret t
  | some (_, cc, type, rest) =>
  if type = strAsn then .ret t
  else if ¬ (type = strIpv6 ∨ type = strIpv4) then .ret t
  else if cc.isEmpty || cc = [42] then .ret t
  else if !e.countries.contains cc then .ret t
  else match statFields rest with
  | none => .ret t
  | some (address, p, status) =>
  if ¬ (status = strAssigned ∨ status = strAllocated) then .ret t
  else match pyInt p with
  | none => .ret t
  | some p =>
  match statPrefix type p with
  | .exc x => .exc x
  | .ret p =>
  match ipNetworkOf address p with
  | none => .ret t
  | some n =>
  if !checkNetwork e n then .ret t
  else .ret { t with networks := putOver t.networks n (some cc, source) fun old => (some cc, old.2) }

/-! ## Objects of the registries -/

/-- `split_line`, location-importer.in:2491-2498 -/
def splitLine (line : Bytes) : Bytes × Bytes :=
  (pyStrip (line.takeWhile (· ≠ 58)), pyStrip ((line.dropWhile (· ≠ 58)).drop 1))

/-- `_count_righthand_zero_bits` of Python's `ipaddress` -/
def pyTrailing : (bits v : Nat) → Nat
  | 0, _ => 0
  | bits + 1, v => if v % 2 = 1 then 0 else pyTrailing bits (v / 2) + 1

/-- The loop of `ipaddress.summarize_address_range`: first address and prefix length of each network -/
def pySummarize (bits first last : Nat) : List (Nat × Nat) :=
  if first ≤ last then
    let nbits := min (pyTrailing bits first) (last - first + 1).log2
    (first, bits - nbits) :: pySummarize bits (first + 2 ^ nbits) last
  else []
  termination_by last + 1 - first
  decreasing_by
    have := Nat.two_pow_pos (min (pyTrailing bits first) (last - first + 1).log2)
    omega

/-- The address with this number -/
def addrOfNat (x : Nat) : Addr := Vector.ofFn fun i => BitVec.ofNat 8 (x / 256 ^ (15 - i.val))

/-- The number of an address in 128 bits -/
def addrToNat (a : Addr) : Nat := a.toList.foldl (fun acc b => acc * 256 + b.toNat) 0

/-- The networks that a generator yields; one that cannot be made is a `ValueError`.  Simplified: IPv4-mapped IPv6 addresses
    are taken for IPv4 addresses, as everywhere in the library; Python keeps them apart. -/
def pyNetworks (base : Nat) : List (Nat × Nat) → Call (List Network)
  | [] => .ret []
  | (v, p) :: rest =>
    match (newNetwork (addrOfNat (base + v)) p).toOption with
    | none => .exc .value
    | some n =>
      match pyNetworks base rest with
      | .exc x => .exc x
      | .ret l => .ret (n :: l)

/-- `list(ipaddress.summarize_address_range(first, last))`: a `TypeError` if the families differ, a `ValueError` if the last
    address is in front of the first. -/
def summarizeRange (first last : Addr) : Call (List Network) :=
  if addrFamily first ≠ addrFamily last then .exc .type
  else if addrToNat last < addrToNat first then .exc .value
  else
    match addrFamily first with
    | .inet => pyNetworks (0xffff * 2 ^ 32) (pySummarize 32 (addrToNat first % 2 ^ 32) (addrToNat last % 2 ^ 32))
    | .inet6 => pyNetworks 0 (pySummarize 128 (addrToNat first) (addrToNat last))

/-- Networks as LACNIC writes them ("24.152.8/22"), location-importer.in:1333-1355; `none`: the block is left out -/
def lacnicNetwork (s : Bytes) : Call (Option Network) :=
  match ipNetwork s with
  | some n => .ret (some n)
  | none =>
    let part0 := s.takeWhile (· ≠ 47)
    let part1 := ((s.dropWhile (· ≠ 47)).drop 1).takeWhile (· ≠ 47)
    let ldigits := part0.count 46
    if ldigits = 1 then
      if s.contains 47 then .ret (ipNetwork (part0 ++ [46, 48, 46, 48, 47] ++ part1)) else .exc .index
    else if ldigits = 2 then
      if s.contains 47 then .ret (ipNetwork (part0 ++ [46, 48, 47] ++ part1)) else .exc .index
    else .ret none

/-- First and last address of an "inetnum", location-importer.in:1326-1367; `none`: the block is left out -/
def inetRange (val : Bytes) : Call (Option (Addr × Addr)) :=
  let start := pyRstrip (val.takeWhile (· ≠ 45))
  let stop := pyStrip ((val.dropWhile (· ≠ 45)).drop 1)
  if !start.isEmpty && !val.contains 45 then
    match lacnicNetwork start with
    | .exc x => .exc x
    | .ret none => .ret none
    | .ret (some n) => .ret (some (n.first, n.last))
  else match parseText start with
    | none => .ret none
    | some (a, _) =>
      match parseText stop with
      | none => .ret none
      | some (b, _) => .ret (some (a, b))

/-- location-importer.in:1326-1369 -/
def inetNetworks (val : Bytes) : Call (Option (List Network)) :=
  match inetRange val with
  | .exc x => .exc x
  | .ret none => .ret none
  | .ret (some (a, b)) =>
    match summarizeRange a b with
    | .exc x => .exc x
    | .ret l => .ret (some l)

/-- "netname" -/
def strNetname : CStr := [110, 101, 116, 110, 97, 109, 101]
/-- "inetnum" -/
def strInetnum : CStr := [105, 110, 101, 116, 110, 117, 109]
/-- "inet6num" -/
def strInet6num : CStr := [105, 110, 101, 116, 54, 110, 117, 109]
/-- "country" -/
def strCountryKey : CStr := [99, 111, 117, 110, 116, 114, 121]
/-- "geofeed" -/
def strGeofeed : CStr := [103, 101, 111, 102, 101, 101, 100]
/-- "remarks" -/
def strRemarks : CStr := [114, 101, 109, 97, 114, 107, 115]
/-- "Geofeed" -/
def strGeofeedRemark : CStr := [71, 101, 111, 102, 101, 101, 100]
/-- "https://" -/
def strHttps : CStr := [104, 116, 116, 112, 115, 58, 47, 47]
/-- "ERX-NETBLOCK" -/
def strErx : CStr := [69, 82, 88, 45, 78, 69, 84, 66, 76, 79, 67, 75]
/-- "-CIDR-BLOCK" -/
def strCidrBlock : CStr := [45, 67, 73, 68, 82, 45, 66, 76, 79, 67, 75]
/-- "AFRINIC", "ARIN", "LACNIC", "RIPE" -/
def strRirs : List CStr :=
  [[65, 70, 82, 73, 78, 73, 67], [65, 82, 73, 78], [76, 65, 67, 78, 73, 67], [82, 73, 80, 69]]
/-- "IANA-NETBLOCK-" -/
def strIana : CStr := [73, 65, 78, 65, 45, 78, 69, 84, 66, 76, 79, 67, 75, 45]
/-- "NON-RIPE-NCC-MANAGED-ADDRESS-BLOCK" -/
def strNonRipe : CStr :=
  [78, 79, 78, 45, 82, 73, 80, 69, 45, 78, 67, 67, 45, 77, 65, 78, 65, 71, 69, 68, 45, 65, 68, 68, 82, 69, 83, 83, 45, 66, 76, 79,
    67, 75]
/-- "STUB-" -/
def strStub : CStr := [83, 84, 85, 66, 45]
/-- "SLASH" -/
def strSlash : CStr := [83, 76, 65, 83, 72]

/-- `\d` for ASCII -/
def isDigit (c : Byte) : Bool := (decVal c).isSome

/-- The regular expression of location-importer.in:1322 matches -/
def historicName (s : Bytes) : Bool :=
  strErx.isPrefixOf s || (strRirs.any fun r => (r ++ strCidrBlock).isPrefixOf s) ||
  (strIana.isPrefixOf s && ((s.drop strIana.length).head?.map isDigit == some true)) || strNonRipe.isPrefixOf s ||
  (strStub.isPrefixOf s &&
    let t := s.drop strStub.length
    let digits := t.takeWhile fun c => isDigit c || c == 45
    let u := t.dropWhile fun c => isDigit c || c == 45
    decide (3 ≤ digits.length) && strSlash.isPrefixOf u && ((u.drop strSlash.length).head?.map isDigit == some true))

/-- The regular expression of location-importer.in:1404: the URL of a geofeed in a remark -/
def remarkUrl (s : Bytes) : Option Bytes :=
  if strGeofeedRemark.isPrefixOf s then
    let t := s.drop strGeofeedRemark.length
    let u := t.dropWhile pySpace
    if decide (u.length < t.length) && strHttps.isPrefixOf u then some u else none
  else none

/-- location-importer.in:1374-1391 with the constants of lines 52-63; `none`: the line is skipped -/
def knownCountry (e : WhoisEnv) (val : Bytes) : Option CStr :=
  let cc := pyUpper val
  if cc = [89, 85] ∨ cc = [90, 90] then none
  else
    let cc := if cc = [85, 75] then [71, 66] else cc
    if e.countries.contains cc then some cc else none

/-- The dictionary of `_parse_inetnum_block`; no countries: the key does not exist -/
structure InetObject where
  net6 : Option (List Network)
  net : Option (List Network)
  countries : List CStr
  geofeed : Option Bytes
  deriving DecidableEq, Repr

/-- One round of the loop location-importer.in:1315-1406; `none`: return from the function -/
def inetLine (e : WhoisEnv) (d : InetObject) (line : Bytes) : Call (Option InetObject) :=
  let key := (splitLine line).1
  let val := (splitLine line).2
  if key = strNetname ∧ historicName val then .ret none
  else if key = strInetnum then
    match inetNetworks val with
    | .exc x => .exc x
    | .ret none => .ret none
    | .ret (some l) => .ret (some { d with net := some l })
  else if key = strInet6num then
    match ipNetwork val with
    | none => .exc .value
    | some n => .ret (some { d with net6 := some [n] })
  else if key = strCountryKey then
    match knownCountry e val with
    | none => .ret (some d)
    | some cc => .ret (some { d with countries := d.countries ++ [cc] })
  else if key = strGeofeed then .ret (some { d with geofeed := some val })
  else if key = strRemarks then
    match remarkUrl val with
    | none => .ret (some d)
    | some url => .ret (some { d with geofeed := some url })
  else .ret (some d)

/-- The loop location-importer.in:1315-1406 -/
def inetLines (e : WhoisEnv) (d : InetObject) : List Bytes → Call (Option InetObject)
  | [] => .ret (some d)
  | line :: rest =>
    match inetLine e d line with
    | .exc x => .exc x
    | .ret none => .ret none
    | .ret (some d) => inetLines e d rest

/-- One round of the loop location-importer.in:1414-1447, with `_parse_geofeed` (1449-1475) -/
def storeNetwork (e : WhoisEnv) (source : CStr) (d : InetObject) (t : WhoisTables) (n : Network) : WhoisTables :=
  if !checkNetwork e n then t
  else
    let cc := d.countries.head?
    let t := { t with rirdata := putOver t.rirdata n cc fun _ => cc }
    match d.geofeed with
    | none => t
    | some url =>
      if url.isEmpty then t
      else match e.geofeedUrl url with
        | none => t
        | some url => if url.isEmpty then t else { t with geofeeds := putOver t.geofeeds (n, url) source fun _ => source }

/-- `_parse_inetnum_block`, location-importer.in:1313-1447.  Iterating over `None` is a `TypeError`. -/
def parseInetnum (e : WhoisEnv) (source : CStr) (t : WhoisTables) (block : List Bytes) : Call WhoisTables :=
  match inetLines e ⟨none, none, [], none⟩ block with
  | .exc x => .exc x
  | .ret none => .ret t
  | .ret (some d) =>
    if d = ⟨none, none, [], none⟩ then .ret t
    else match d.net6.or d.net with
      | none => .exc .type
      | some l => .ret (l.foldl (storeNetwork e source d) t)

/-- "aut-num" -/
def strAutnum : CStr := [97, 117, 116, 45, 110, 117, 109]
/-- "org" -/
def strOrg : CStr := [111, 114, 103]
/-- "descr" -/
def strDescr : CStr := [100, 101, 115, 99, 114]
/-- "organisation" -/
def strOrganisation : CStr := [111, 114, 103, 97, 110, 105, 115, 97, 116, 105, 111, 110]
/-- "org-name" -/
def strOrgName : CStr := [111, 114, 103, 45, 110, 97, 109, 101]
/-- "LIBLOC-" -/
def strLibloc : CStr := [76, 73, 66, 76, 79, 67, 45]
/-- "-ORGHANDLE" -/
def strOrghandle : CStr := [45, 79, 82, 71, 72, 65, 78, 68, 76, 69]

/-- The second group of the regular expression of location-importer.in:1273 -/
def asnDigits (val : Bytes) : Option Bytes :=
  if val.take 2 = [65, 83] ∨ val.take 2 = [97, 115] then
    let digits := (val.drop 2).takeWhile isDigit
    if digits.isEmpty then none else some digits
  else none

/-- The dictionary of `_parse_autnum_block` -/
structure AutnumObject where
  asn : Option Bytes
  org : Option Bytes
  descr : Option Bytes
  deriving DecidableEq, Repr

/-- The loop location-importer.in:1267-1284 -/
def autnumLines (d : AutnumObject) : List Bytes → AutnumObject
  | [] => d
  | line :: rest =>
    let key := (splitLine line).1
    let val := (splitLine line).2
    if key = strAutnum then
      match asnDigits val with
      | none => autnumLines d rest
      | some digits => autnumLines { d with asn := some digits } rest
    else if key = strOrg then autnumLines { d with org := some (pyUpper val) } rest
    else if key = strDescr then
      match d.descr with
      | some _ => autnumLines d rest
      | none => autnumLines { d with descr := some val } rest
    else autnumLines d rest

/-- location-importer.in:1306-1311: the column `number` is an `integer` -/
def storeAutnum (t : WhoisTables) (asn org : Bytes) : Call WhoisTables :=
  match digitsOf asn with
  | none => .exc .database
  | some number =>
    if 2 ^ 31 ≤ number then .exc .database
    else .ret { t with tmpAutnums := putOver t.tmpAutnums number org fun _ => org }

/-- `_parse_autnum_block`, location-importer.in:1266-1311 -/
def parseAutnum (t : WhoisTables) (block : List Bytes) : Call WhoisTables :=
  let d := autnumLines ⟨none, none, none⟩ block
  match d.asn with
  | none => .ret t
  | some asn =>
    match d.org with
    | some org => storeAutnum t asn org
    | none =>
      match d.descr with
      | none => .ret t
      | some descr =>
        let org := strLibloc ++ asn ++ strOrghandle
        storeAutnum { t with tmpOrgs := putNew t.tmpOrgs org descr } asn org

/-- The loop location-importer.in:1478-1486 -/
def orgLines (d : Option Bytes × Option Bytes) : List Bytes → Option Bytes × Option Bytes
  | [] => d
  | line :: rest =>
    let key := (splitLine line).1
    let val := (splitLine line).2
    if key = strOrganisation then orgLines (some (pyUpper val), d.2) rest
    else if key = strOrgName then orgLines (d.1, some val) rest
    else orgLines d rest

/-- `_parse_org_block`, location-importer.in:1477-1496: both columns are `NOT NULL` -/
def parseOrg (t : WhoisTables) (block : List Bytes) : Call WhoisTables :=
  match orgLines (none, none) block with
  | (none, none) => .ret t
  | (some handle, some name) => .ret { t with tmpOrgs := putOver t.tmpOrgs handle name fun _ => name }
  | _ => .exc .database

/-- `_parse_block`, location-importer.in:1250-1264 -/
def parseBlock (e : WhoisEnv) (source : CStr) (t : WhoisTables) (block : List Bytes) : Call WhoisTables :=
  match block with
  | [] => .exc .index
  | line :: _ =>
    if (strAutnum ++ [58]).isPrefixOf line then parseAutnum t block
    else if (strInet6num ++ [58]).isPrefixOf line || (strInetnum ++ [58]).isPrefixOf line then parseInetnum e source t block
    else if (strOrganisation ++ [58]).isPrefixOf line then parseOrg t block
    else .ret t

/-! ## Sources -/

/-- A line of the list of AS numbers of ARIN: status, name of the organisation, first and last number -/
structure ArinLine where
  status : Bytes
  name : Bytes
  first : Bytes
  last : Bytes
  deriving DecidableEq, Repr

/-- "Full Registry Services" -/
def strFull : CStr := [70, 117, 108, 108, 32, 82, 101, 103, 105, 115, 116, 114, 121, 32, 83, 101, 114, 118, 105, 99, 101, 115]
/-- "ARIN" -/
def strArin : CStr := [65, 82, 73, 78]

/-- location-importer.in:1136-1161 -/
def arinNumbers (name : CStr) (t : WhoisTables) (first : Int) : (count : Nat) → WhoisTables
  | 0 => t
  | count + 1 =>
    let t := if checkAsn first then { t with autnums := putNew t.autnums first.toNat (name, strArin) } else t
    arinNumbers name t (first + 1) count

/-- One round of the loop in `_import_arin_as_names`, location-importer.in:1100-1161; the fields of the line are given.  A
    field that is not a number is a `ValueError`, which is not caught (1119-1129). -/
def arinLine (t : WhoisTables) (l : ArinLine) : Call WhoisTables :=
  if l.status ≠ strFull then .ret t
  else match pyInt l.first with
    | none => .exc .value
    | some first =>
      match pyInt l.last with
      | none => .exc .value
      | some last => .ret (arinNumbers l.name t first (last + 1 - first).toNat)

/-- A loop over the parts of a file that ends with the first exception -/
def eachPart {α : Type} (f : WhoisTables → α → Call WhoisTables) (t : WhoisTables) : List α → Call WhoisTables
  | [] => .ret t
  | x :: rest =>
    match f t x with
    | .exc x => .exc x
    | .ret t => eachPart f t rest

/-- The files of a source, location-importer.in:839-877 -/
inductive WhoisFeed
  | standard (file : Bytes)
  | extended (file : Bytes)
  | arin (lines : List ArinLine)

/-- `_import_standard_format`, `_import_extended_format`, `_import_arin_as_names`, location-importer.in:1087-1161, with
    `iterate_over_lines` (2571-2577) -/
def importFeed (e : WhoisEnv) (source : CStr) (t : WhoisTables) : WhoisFeed → Call WhoisTables
  | .standard file => eachPart (parseBlock e source) t (iterBlocks [] (fileLines file))
  | .extended file => eachPart (parseStat e source) t ((fileLines file).map pyRstrip)
  | .arin lines => eachPart arinLine t lines

/-- `c.network << networks.network`: the same family, and `n` lies strictly inside `m` -/
def sqlInside (n m : Network) : Bool := decide (m.family = n.family) && decide (m.pfx < n.pfx) && isSubnet m n

/-- `parent_country` of location-importer.in:1026-1044: the country of the most specific network around `n` -/
def parentCountry (t : List (Network × Option CStr × CStr)) (n : Network) : Option CStr :=
  let l := t.filter fun x => sqlInside n x.1
  (l.find? fun x => l.all fun y => decide (y.1.pfx ≤ x.1.pfx)).bind (·.2.1)

/-- `parent_country IS NULL OR country <> parent_country`, location-importer.in:1054-1057; comparing with `NULL` is not true. -/
def addsCountry (country parent : Option CStr) : Bool :=
  match parent with
  | none => true
  | some p =>
    match country with
    | none => false
    | some c => decide (c ≠ p)

/-- Insert rows unless the network exists -/
def putRows (source : CStr) (t : List (Network × Option CStr × CStr)) (rows : List (Network × Option CStr)) :
    List (Network × Option CStr × CStr) :=
  rows.foldl (fun t x => putNew t x.1 (x.2, source)) t

/-- The rows of one family and one prefix length -/
def rowsOf (rows : List (Network × Option CStr)) (family : Family) (p : Nat) : List (Network × Option CStr) :=
  rows.filter fun x => decide (x.1.family = family) && decide (x.1.pfx = p)

/-- location-importer.in:1011-1060 for one prefix length; the statement sees the table as it was before. -/
def copyPrefix (source : CStr) (rows : List (Network × Option CStr)) (family : Family) (t : List (Network × Option CStr × CStr)) (p : Nat) :
    List (Network × Option CStr × CStr) :=
  putRows source t ((rowsOf rows family p).filter fun x => addsCountry x.2 (parentCountry t x.1))

/-- location-importer.in:955-1060 for one family: everything of the smallest prefix length, then one length after the other -/
def copyFamily (source : CStr) (rows : List (Network × Option CStr)) (t : List (Network × Option CStr × CStr)) (family : Family) :
    List (Network × Option CStr × CStr) :=
  match (List.range 129).filter fun p => rows.any fun x => decide (x.1.family = family) && decide (x.1.pfx = p) with
  | [] => t
  | smallest :: prefixes => prefixes.foldl (copyPrefix source rows family) (putRows source t (rowsOf rows family smallest))

/-- location-importer.in:942-1060 -/
def copyNetworks (source : CStr) (rows : List (Network × Option CStr)) (t : List (Network × Option CStr × CStr)) :
    List (Network × Option CStr × CStr) :=
  [Family.inet, Family.inet6].foldl (copyFamily source rows) t

/-- location-importer.in:1062-1085 -/
def joinAutnums (source : CStr) (autnums : List (Nat × CStr)) (orgs : List (CStr × CStr)) (t : List (Nat × CStr × CStr)) :
    List (Nat × CStr × CStr) :=
  autnums.foldl (fun t x =>
    match orgs.find? fun y => decide (y.1 = x.2) with
    | none => t
    | some (_, name) => putOver t x.1 (name, source) fun old => (name, old.2)) t

/-- The deletions and the new temporary tables, location-importer.in:910-931 -/
def startSource (source : CStr) (t : WhoisTables) : WhoisTables :=
  ⟨t.networks.filter fun x => decide (x.2.2 ≠ source), t.autnums.filter fun x => decide (x.2.2 ≠ source),
    t.geofeeds.filter fun x => decide (x.2 ≠ source), [], [], []⟩

/-- `_process_source`, location-importer.in:904-1085 -/
def processSource (e : WhoisEnv) (source : CStr) (feeds : List WhoisFeed) (t : WhoisTables) : Call WhoisTables :=
  match eachPart (importFeed e source) (startSource source t) feeds with
  | .exc x => .exc x
  | .ret t => .ret
    { t with networks := copyNetworks source t.rirdata t.networks,
             autnums := joinAutnums source t.tmpAutnums t.tmpOrgs t.autnums }

/-- The loop of `handle_update_whois`, location-importer.in:887-902: a transaction that ends with an exception leaves the
    tables as they were.  The result of the command is 0 if there were no exceptions.  `none` in place of files: a download
    failed. -/
def updateSources (e : WhoisEnv) : List (CStr × Option (List WhoisFeed)) → WhoisTables × Bool → WhoisTables × Bool
  | [], st => st
  | (source, feeds) :: rest, (t, success) =>
    match feeds with
    | none => updateSources e rest (t, false)
    | some feeds =>
      match processSource e source feeds t with
      | .exc _ => updateSources e rest (t, false)
      | .ret t => updateSources e rest (t, success)

end Loc
