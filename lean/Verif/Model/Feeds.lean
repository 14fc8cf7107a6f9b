import Verif.Model.Whois
import Verif.Model.Import
/-
Model of importing feeds of third parties: `scripts/location-importer.in`, `handle_update_feeds` (2156-2197),
`_process_feed` (2199-2213), `_import_aws_ip_ranges` (2215-2339), `_import_spamhaus_drop` (2341-2395),
`_import_spamhaus_asndrop` (2397-2444).

Simplified: the text of the feeds is ASCII; numbers in JSON are integers.
-/
namespace Loc

/-- What `json.loads` returns -/
inductive Json
  | null
  | bool (b : Bool)
  | number (i : Int)
  | text (s : Bytes)
  | list (l : List Json)
  | object (o : List (Bytes × Json))

/-- The tables `network_feeds` and `autnum_feeds`, location-importer.in:248-274; network or number, and source, are unique. -/
structure FeedTables where
  networks : List ((Network × CStr) × Marks)
  autnums : List ((Nat × CStr) × Marks)
  deriving DecidableEq, Repr

/-- What comes from elsewhere: the files behind the URLs (`none`: an exception), the parser of JSON (`none`:
    `JSONDecodeError`), and Python's knowledge about networks. -/
structure FeedEnv where
  retrieve : CStr → Option Bytes
  json : Bytes → Option Json
  whois : WhoisEnv

/-- `x.get(key)`: an exception (`none`) unless this is an object; `null` if there is no such key.  Of several equal keys
    `json` keeps the last. -/
def Json.get (key : Bytes) : Json → Option Json
  | .object o => some (((o.reverse.find? fun x => decide (x.1 = key)).map (·.2)).getD .null)
  | _ => none

/-- Is the value considered true? -/
def Json.truthy : Json → Bool
  | .null => false
  | .bool b => b
  | .number i => decide (i ≠ 0)
  | .text s => !s.isEmpty
  | .list l => !l.isEmpty
  | .object o => !o.isEmpty

/-- `ipaddress.ip_network(text)`, without the exception: no bits may be set behind the prefix.  See `ipNetwork`. -/
def ipNetworkStrict (text : Bytes) : Option Network :=
  match parseText (text.takeWhile (· ≠ 47)) with
  | none => none
  | some (a, _) =>
    match ipNetwork text with
    | none => none
    | some n => if n.first = a then some n else none

/-- `INSERT` without `ON CONFLICT`: an error (`none`) if there is an entry already -/
def putOnce {κ β : Type} [DecidableEq κ] (t : List (κ × β)) (k : κ) (v : β) : Option (List (κ × β)) :=
  if t.any fun x => decide (x.1 = k) then none else some (t ++ [(k, v)])

/-! ## AWS -/

/-- "ipv6_prefixes" -/
def strPrefixes6 : CStr := [105, 112, 118, 54, 95, 112, 114, 101, 102, 105, 120, 101, 115]
/-- "prefixes" -/
def strPrefixes : CStr := [112, 114, 101, 102, 105, 120, 101, 115]
/-- "ipv6_prefix" -/
def strPrefix6 : CStr := [105, 112, 118, 54, 95, 112, 114, 101, 102, 105, 120]
/-- "ip_prefix" -/
def strPrefix4 : CStr := [105, 112, 95, 112, 114, 101, 102, 105, 120]
/-- "region" -/
def strRegion : CStr := [114, 101, 103, 105, 111, 110]
/-- "GLOBAL" -/
def strGlobal : CStr := [71, 76, 79, 66, 65, 76]
/-- "us-" -/
def strUs : CStr := [117, 115, 45]
/-- "cn-" -/
def strCn : CStr := [99, 110, 45]

/-- A text in ASCII -/
def bytesOf (s : String) : Bytes := s.toList.map fun c => BitVec.ofNat 8 c.toNat

/-- `aws_region_country_map`, location-importer.in:2224-2272 -/
def awsRegions : List (String × String) :=
  [("af-south-1", "ZA"), ("il-central-1", "IL"), ("ap-northeast-1", "JP"), ("ap-northeast-2", "KR"), ("ap-northeast-3", "JP"),
    ("ap-east-1", "HK"), ("ap-south-1", "IN"), ("ap-south-2", "IN"), ("ap-southeast-1", "SG"), ("ap-southeast-2", "AU"),
    ("ap-southeast-3", "MY"), ("ap-southeast-4", "AU"), ("ap-southeast-5", "MY"), ("ap-southeast-6", "AP"), ("ap-southeast-7", "AP"),
    ("ca-central-1", "CA"), ("ca-west-1", "CA"), ("eu-central-1", "DE"), ("eu-central-2", "CH"), ("eu-north-1", "SE"),
    ("eu-west-1", "IE"), ("eu-west-2", "GB"), ("eu-west-3", "FR"), ("eu-south-1", "IT"), ("eu-south-2", "ES"),
    ("me-central-1", "AE"), ("me-south-1", "BH"), ("mx-central-1", "MX"), ("sa-east-1", "BR"), ("eusc-de-east-1", "DE")]

/-- Country and anycast of a region, location-importer.in:2292-2321: an exception, nothing, or these.  Anything but a text is not
    in the dictionary, and has no method `startswith` (or cannot be looked up at all). -/
def awsRegion : Json → Option (Option (Option CStr × Bool))
  | .text r =>
    match awsRegions.find? fun x => decide (bytesOf x.1 = r) with
    | some x => some (some (some (bytesOf x.2), false))
    | none =>
      if r = strGlobal then some (some (none, true))
      else if strUs.isPrefixOf r then some (some (some [85, 83], false))
      else if strCn.isPrefixOf r then some (some (some [67, 78], false))
      else some none
  | _ => none

/-- One entry, location-importer.in:2277-2339.  If the network cannot be parsed, the exception handler itself raises an exception
    (`ValuleError`).  Simplified: a number is not taken for an address. -/
def awsPrefix (e : FeedEnv) (name : CStr) (t : FeedTables) (p : Json) : Option FeedTables :=
  match p.get strPrefix6 with
  | none => none
  | some p6 =>
    match (if p6.truthy then some p6 else p.get strPrefix4) with
    | some (.text s) =>
      match ipNetworkStrict s with
      | none => none
      | some n =>
        if !checkNetwork e.whois n then some t
        else
          match p.get strRegion with
          | none => none
          | some r =>
            match awsRegion r with
            | none => none
            | some none => some t
            | some (some (cc, anycast)) =>
              some { t with networks := putNew t.networks (n, name) ⟨cc, none, none, some anycast, none⟩ }
    | _ => none

def awsPrefixes (e : FeedEnv) (name : CStr) (t : FeedTables) : List Json → Option FeedTables
  | [] => some t
  | p :: ps =>
    match awsPrefix e name t p with
    | none => none
    | some t => awsPrefixes e name t ps

/-- `feed.get(key, [])`.  Simplified: anything but a list is an exception. -/
def awsList (feed : Json) (key : Bytes) : Option (List Json) :=
  match feed with
  | .object o =>
    match o.reverse.find? fun x => decide (x.1 = key) with
    | none => some []
    | some (_, .list l) => some l
    | some _ => none
  | _ => none

/-- `_import_aws_ip_ranges`, location-importer.in:2215-2339 -/
def importAws (e : FeedEnv) (name : CStr) (t : FeedTables) (f : Bytes) : Option FeedTables :=
  match e.json f with
  | none => none
  | some feed =>
    match awsList feed strPrefixes6, awsList feed strPrefixes with
    | some l6, some l4 => awsPrefixes e name t (l6 ++ l4)
    | _, _ => none

/-! ## Spamhaus -/

/-- One line, location-importer.in:2348-2391: the table, and whether the line was counted -/
def dropLine (e : FeedEnv) (name : CStr) (t : FeedTables) (line : Bytes) : Option (FeedTables × Bool) :=
  if (line.takeWhile (· ≠ 59)).isEmpty then some (t, false)
  else
    match ipNetworkStrict (pyStrip (line.takeWhile (· ≠ 59))) with
    | none => some (t, true)
    | some n =>
      if !checkNetwork e.whois n then some (t, true)
      else
        match putOnce t.networks (n, name) ⟨none, none, none, none, some true⟩ with
        | none => none
        | some networks => some ({ t with networks }, true)

/-- `_import_spamhaus_drop`, location-importer.in:2341-2395; `lines` says whether any lines have been counted. -/
def dropLines (e : FeedEnv) (name : CStr) (t : FeedTables) (lines : Bool) : List Bytes → Option FeedTables
  | [] => if lines then some t else none
  | l :: ls =>
    match dropLine e name t l with
    | none => none
    | some (t, counted) => dropLines e name t (lines || counted) ls

/-- "type" -/
def strType : CStr := [116, 121, 112, 101]
/-- "metadata" -/
def strMetadata : CStr := [109, 101, 116, 97, 100, 97, 116, 97]

/-- Is this the text "metadata"? -/
def Json.isMetadata : Json → Bool
  | .text s => decide (s = strMetadata)
  | _ => false

/-- One line, location-importer.in:2401-2444.  A text or the like cannot be compared with numbers; `true` passes as 1, but its
    text "True" is no number for the database. -/
def asndropLine (e : FeedEnv) (name : CStr) (t : FeedTables) (line : Bytes) : Option FeedTables :=
  match e.json line with
  | none => some t
  | some j =>
    match j.get strType, j.get strAsn with
    | some type, some asn =>
      if type.isMetadata then some t
      else if !asn.truthy then some t
      else
        match asn with
        | .number i =>
          if !checkAsn i then some t
          else (putOnce t.autnums (i.toNat, name) ⟨none, none, none, none, some true⟩).map fun autnums => { t with autnums }
        | _ => none
    | _, _ => none

/-- `_import_spamhaus_asndrop`, location-importer.in:2397-2444 -/
def asndropLines (e : FeedEnv) (name : CStr) (t : FeedTables) : List Bytes → Option FeedTables
  | [] => some t
  | l :: ls =>
    match asndropLine e name t l with
    | none => none
    | some t => asndropLines e name t ls

/-! ## All feeds -/

inductive FeedKind
  | aws
  | drop
  | asndrop
  deriving DecidableEq, Repr

/-- location-importer.in:2162-2172: name, callback, URL -/
def allFeeds : List (CStr × FeedKind × CStr) :=
  [(bytesOf "AWS-IP-RANGES", .aws, bytesOf "https://ip-ranges.amazonaws.com/ip-ranges.json"),
    (bytesOf "SPAMHAUS-DROP", .drop, bytesOf "https://www.spamhaus.org/drop/drop.txt"),
    (bytesOf "SPAMHAUS-DROPV6", .drop, bytesOf "https://www.spamhaus.org/drop/dropv6.txt"),
    (bytesOf "SPAMHAUS-ASNDROP", .asndrop, bytesOf "https://www.spamhaus.org/drop/asndrop.json")]

/-- The callback -/
def readFeed (e : FeedEnv) (name : CStr) (kind : FeedKind) (t : FeedTables) (f : Bytes) : Option FeedTables :=
  match kind with
  | .aws => importAws e name t f
  | .drop => dropLines e name t false (fileLines f)
  | .asndrop => asndropLines e name t (fileLines f)

/-- `DELETE … WHERE source = name`, location-importer.in:2208-2209 -/
def dropSource (name : CStr) (t : FeedTables) : FeedTables :=
  ⟨t.networks.filter fun x => decide (x.1.2 ≠ name), t.autnums.filter fun x => decide (x.1.2 ≠ name)⟩

/-- `_process_feed`, location-importer.in:2199-2213; `none`: an exception, whereupon everything is undone -/
def processFeed (e : FeedEnv) (name : CStr) (kind : FeedKind) (url : CStr) (t : FeedTables) : Option FeedTables :=
  match e.retrieve url with
  | none => none
  | some f => readFeed e name kind (dropSource name t) f

/-- The loop, location-importer.in:2182-2194; the second component is `success`. -/
def eachFeed (e : FeedEnv) (requested : List CStr) : List (CStr × FeedKind × CStr) → FeedTables × Bool → FeedTables × Bool
  | [], r => r
  | (name, kind, url) :: fs, (t, success) =>
    if requested ≠ [] ∧ name ∉ requested then eachFeed e requested fs (t, success)
    else
      match processFeed e name kind url t with
      | none => eachFeed e requested fs (t, false)
      | some t => eachFeed e requested fs (t, success)

/-- `DELETE … WHERE NOT source = ANY(sources)`, location-importer.in:2174-2180 -/
def dropUnsupported (t : FeedTables) : FeedTables :=
  ⟨t.networks.filter fun x => decide (x.1.2 ∈ allFeeds.map (·.1)), t.autnums.filter fun x => decide (x.1.2 ∈ allFeeds.map (·.1))⟩

/-- `handle_update_feeds`, location-importer.in:2156-2197: the tables and the exit code -/
def updateFeeds (e : FeedEnv) (requested : List CStr) (t : FeedTables) : FeedTables × Nat :=
  let r := eachFeed e requested allFeeds (dropUnsupported t, true)
  (r.1, if r.2 then 0 else 1)

end Loc
