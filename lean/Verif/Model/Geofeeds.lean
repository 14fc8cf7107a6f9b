import Verif.Model.Whois
import Verif.Model.Import
/-
Model of updating geofeeds: `src/scripts/location-importer.in`, `handle_update_geofeeds` (1770-1849), `_fetch_geofeed`
(1851-1994), the subquery of `handle_write` that reads the result (525-542), and of `handle_import_countries` (2468-2489).

Simplified: all statements are executed at the same time `now`; letters and white space outside of ASCII are not recognised
(so `str.upper` does not turn them into ASCII).  Each task has its own connection and thus its own transaction
(`src/python/location/database.py:40-67`).
-/
namespace Loc

/-- A row of the table `geofeeds`, location-importer.in:224-230, without the id; the time is in seconds. -/
structure Geofeed where
  url : CStr
  status : Option Nat
  error : Option Bytes
  updated : Option Nat
  deriving DecidableEq, Repr

/-- A row of the table `geofeed_networks`, location-importer.in:233-239, without the id -/
structure GeoRow where
  network : Network
  country : CStr
  region : Bytes
  city : Bytes
  deriving DecidableEq, Repr

/-- The tables `network_geofeeds` (without the column `source`), `geofeeds` and `geofeed_networks`, location-importer.in:223-247;
    `next` is the next number of the sequence that belongs to `geofeeds.id`. -/
structure GeoTables where
  links : List (Network × CStr)
  feeds : List (Nat × Geofeed)
  rows : List (Nat × GeoRow)
  next : Nat
  deriving DecidableEq, Repr

/-- What becomes of `self.downloader.retrieve`, location-importer.in:1859-1874 and location/downloader.py:212-267: a file, an
    `HTTPError`, one of `InvalidURL`, `URLError`, `TimeoutError`, or any other exception, such as the `RemoteDisconnected` of
    `http.client` or the `IncompleteRead`.  A file that was compressed is decompressed while it is read, which fails with
    other exceptions after some part of it (`intact` is false). -/
inductive Fetched
  | file (f : Bytes) (intact : Bool)
  | http (code : Nat) (text : Bytes)
  | failed (text : Bytes)
  | raised
  deriving DecidableEq, Repr

/-- What comes from elsewhere: the servers, the decoder of UTF-8, the time. -/
structure GeoEnv where
  retrieve : CStr → Fetched
  decodes : Bytes → Bool
  now : Nat

/-! ## Lines -/

/-- `s.split(",", k)` -/
def splitCommas : Nat → Bytes → List Bytes
  | 0, s => [s]
  | k + 1, s =>
    if s.contains 44 then s.takeWhile (· ≠ 44) :: splitCommas k ((s.dropWhile (· ≠ 44)).drop 1) else [s]

/-- What becomes of a line: nothing, a row, or an exception -/
inductive GeoLine
  | skip
  | row (r : GeoRow)
  | raised
  deriving DecidableEq, Repr

/-- One line, location-importer.in:1886-1960.  `country_code_is_valid` raises a `ValueError` if there is a NUL in its argument,
    and psycopg a `DataError` if there is one in a text for the database; none of these is caught. -/
def geoLine (e : GeoEnv) (line : Bytes) : GeoLine :=
  if !e.decodes line then .skip
  else if (pyRstrip line).isEmpty then .skip
  else if (pyRstrip line).head? = some 35 then .skip
  else
    match splitCommas 5 (pyRstrip line) with
    | network :: country :: region :: city :: _ =>
      match ipNetwork network with
      | none => .skip
      | some n =>
        if (pyUpper (pyStrip country)).isEmpty then .skip
        else if (pyUpper (pyStrip country)).contains 0 then .raised
        else if !ccIsValid (some (pyUpper (pyStrip country))) then .skip
        else if region.contains 0 || city.contains 0 then .raised
        else .row ⟨n, pyUpper (pyStrip country), region, city⟩
    | _ => .skip

/-- The loop, location-importer.in:1883-1960: the rows, or an exception -/
def geoLines (e : GeoEnv) : List Bytes → Option (List GeoRow)
  | [] => some []
  | l :: ls =>
    match geoLine e l with
    | .skip => geoLines e ls
    | .row r => (geoLines e ls).map (r :: ·)
    | .raised => none

/-! ## Feeds -/

/-- `UPDATE geofeeds SET … WHERE id = …` -/
def setFeed (id : Nat) (f : Geofeed → Geofeed) (feeds : List (Nat × Geofeed)) : List (Nat × Geofeed) :=
  feeds.map fun x => if x.1 = id then (id, f x.2) else x

/-- `DELETE FROM geofeed_networks WHERE geofeed_id = …` -/
def dropRows (id : Nat) (rows : List (Nat × GeoRow)) : List (Nat × GeoRow) := rows.filter fun x => decide (x.1 ≠ id)

/-- `_fetch_geofeed`, location-importer.in:1851-1994; `none`: an exception, whereupon the transaction is undone -/
def fetchGeofeed (e : GeoEnv) (id : Nat) (url : CStr) (t : GeoTables) : Option GeoTables :=
  match e.retrieve url with
  | .raised => none
  | .file f intact =>
    match geoLines e (fileLines f) with
    | none => none
    | some rows =>
      if intact then
        some { t with
          feeds := setFeed id (fun x => { x with updated := some e.now, status := none, error := none }) t.feeds
          rows := dropRows id t.rows ++ rows.map (id, ·) }
      else none
  | .http code text =>
    if text.contains 0 then none
    else some { t with
      feeds := setFeed id (fun x => { x with status := some code, error := some text }) t.feeds
      rows := if code = 404 then dropRows id t.rows else t.rows }
  | .failed text =>
    if text.contains 0 then none
    else some { t with feeds := setFeed id (fun x => { x with status := some 599, error := some text }) t.feeds }

/-- The `TaskGroup`, location-importer.in:1826-1832, with the tasks in the order in which they come to an end: the first
    exception cancels all others. -/
def geoTasks (e : GeoEnv) : List (Nat × CStr) → GeoTables → GeoTables × Bool
  | [], t => (t, true)
  | (id, url) :: rest, t =>
    match fetchGeofeed e id url t with
    | none => (t, false)
    | some t => geoTasks e rest t

/-- `INSERT INTO geofeeds … ON CONFLICT (url) DO NOTHING`, location-importer.in:1788-1808.  Simplified: no numbers are lost in
    case of conflicts. -/
def addFeeds (t : GeoTables) : List CStr → GeoTables
  | [] => t
  | url :: urls =>
    if t.feeds.any fun x => decide (x.2.url = url) then addFeeds t urls
    else addFeeds { t with feeds := t.feeds ++ [(t.next, ⟨url, none, none, none⟩)], next := t.next + 1 } urls

/-- `DELETE FROM geofeeds WHERE url NOT IN …`, location-importer.in:1773-1785; the rows of deleted feeds are deleted as well
    (`on delete cascade`, line 234). -/
def dropFeeds (t : GeoTables) : GeoTables :=
  let feeds := t.feeds.filter fun x => t.links.any fun l => decide (l.2 = x.2.url)
  { t with feeds, rows := t.rows.filter fun r => feeds.any fun x => decide (x.1 = r.1) }

/-- `updated_at IS NULL OR updated_at <= CURRENT_TIMESTAMP - INTERVAL …` -/
def olderThan (seconds now : Nat) (f : Geofeed) : Bool :=
  match f.updated with
  | none => true
  | some u => decide (u + seconds ≤ now)

/-- location-importer.in:1810-1822; the order does not matter because of `geoTasks`. -/
def dueFeeds (now : Nat) (t : GeoTables) : List (Nat × CStr) :=
  (t.feeds.filter fun x => olderThan (7 * 86400) now x.2).map fun x => (x.1, x.2.url)

/-- location-importer.in:1834-1849 -/
def purgeRows (now : Nat) (t : GeoTables) : GeoTables :=
  { t with rows := t.rows.filter fun r => !t.feeds.any fun x => decide (x.1 = r.1) && olderThan (14 * 86400) now x.2 }

/-- `handle_update_geofeeds`, location-importer.in:1770-1849: the tables, and whether there was no exception.  `schedule` puts the
    tasks in the order in which they come to an end. -/
def updateGeofeeds (e : GeoEnv) (schedule : List (Nat × CStr) → List (Nat × CStr)) (t : GeoTables) : GeoTables × Bool :=
  let t := addFeeds (dropFeeds t) (t.links.map (·.2))
  match geoTasks e (schedule (dueFeeds e.now t)) t with
  | (t, false) => (t, false)
  | (t, true) => (purgeRows e.now t, true)

/-! ## Use -/

/-- The joins of location-importer.in:530-541 -/
def joinGeofeeds (t : GeoTables) : List (Network × CStr) :=
  t.feeds.flatMap fun f =>
    (t.links.filter fun l => decide (f.2.url = l.2)).flatMap fun l =>
      (t.rows.filter fun r => decide (f.1 = r.1) && sqlContains l.1 r.2.network).map fun r => (r.2.network, r.2.country)

/-- One row for each network (`DISTINCT ON`, location-importer.in:527-529); the statement does not say which. -/
def distinctOn (c : Network → Nat) (rows : List (Network × CStr)) : List Network → List (Network × Option CStr)
  | [] => []
  | n :: ns =>
    match sqlPick (c n) (rows.filter fun x => decide (x.1 = n)) with
    | none => distinctOn c rows ns
    | some x => (n, some x.2) :: distinctOn c rows ns

/-- The subquery `geofeeds`, location-importer.in:525-542 -/
def usedGeofeeds (c : Network → Nat) (t : GeoTables) : List (Network × Option CStr) :=
  distinctOn c (joinGeofeeds t) ((joinGeofeeds t).map (·.1)).eraseDups

/-! ## Countries -/

/-- The first word, and the rest without the white space in front of it -/
def cutWord (s : Bytes) : Bytes × Bytes := (s.takeWhile (!pySpace ·), (s.dropWhile (!pySpace ·)).dropWhile pySpace)

/-- `country_code, continent_code, name = line.split(maxsplit=2)`, location-importer.in:2482, of a line without white space at the
    end; `none`: an exception -/
def splitCountry (line : Bytes) : Option (CStr × CStr × CStr) :=
  let (code, rest) := cutWord (line.dropWhile pySpace)
  let (continent, name) := cutWord rest
  if code.isEmpty || continent.isEmpty || name.isEmpty then none else some (code, continent, name)

/-- The table `countries`, location-importer.in:210-213: code, which is unique, continent and name -/
abbrev CountryTable := List (CStr × CStr × CStr)

/-- The loop of `handle_import_countries`, location-importer.in:2473-2489; `none`: a text contains a NUL -/
def countryRows (t : CountryTable) : List Bytes → Option CountryTable
  | [] => some t
  | line :: lines =>
    if (pyRstrip line).head? = some 35 then countryRows t lines
    else
      match splitCountry (pyRstrip line) with
      | none => countryRows t lines
      | some (code, continent, name) =>
        if code.contains 0 || continent.contains 0 || name.contains 0 then none
        else countryRows (putNew t code (continent, name)) lines

/-- `handle_import_countries`, location-importer.in:2468-2489, with the lines of the files, after decoding: the table, and
    whether there was no exception -/
def updateCountries (files : List (List Bytes)) (t : CountryTable) : CountryTable × Bool :=
  match countryRows [] files.flatten with
  | none => (t, false)
  | some t => (t, true)

end Loc
