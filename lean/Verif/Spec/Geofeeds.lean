import Verif.Spec.Whois
import Verif.Model.Geofeeds
/-
Specification vocabulary for geofeeds (`location-importer update-geofeeds`) and countries (`location-importer import-countries`).
-/
namespace Loc.Spec

/-! ## Lines -/

/-- The text in front of the first comma, and so on: the first four of the fields. -/
def FourFields (s a b c d : Bytes) : Prop :=
  44 ∉ a ∧ 44 ∉ b ∧ 44 ∉ c ∧ 44 ∉ d ∧ ∃ rest, s = a ++ 44 :: b ++ 44 :: c ++ 44 :: d ++ rest ∧ (rest = [] ∨ rest.head? = some 44)

/-- The line is no comment and has these fields. -/
def GeoFields (e : GeoEnv) (line a b c d : Bytes) : Prop :=
  e.decodes line = true ∧ ∃ s, EndTrimmed line s ∧ s.head? ≠ some 35 ∧ FourFields s a b c d

/-- The country code that is meant. -/
def MeansCode (b code : Bytes) : Prop := ∃ s, BothTrimmed b s ∧ code = s.map upper

/-- The line locates a network: network, country, region and city. -/
def GeoSays (e : GeoEnv) (line : Bytes) (r : GeoRow) : Prop :=
  ∃ a b, GeoFields e line a b r.region r.city ∧ NamesNet a r.network ∧ MeansCode b r.country ∧ ValidCC r.country

/-- A line that is fatal: with a NUL in what would be read from it. -/
def GeoFatal (e : GeoEnv) (line : Bytes) : Prop :=
  ∃ a b c d n, GeoFields e line a b c d ∧ NamesNet a n ∧
    (0 ∈ b ∨ ((∃ code, MeansCode b code ∧ ValidCC code) ∧ (0 ∈ c ∨ 0 ∈ d)))

/-- What the lines say, one after the other. -/
def GeoContents (e : GeoEnv) (f : Bytes) (rows : List GeoRow) : Prop :=
  ∃ lines answers, IsLines f lines ∧ rows = answers.filterMap id ∧
    List.Forall₂ (fun line answer => ∀ r, answer = some r ↔ GeoSays e line r) lines answers

/-! ## Feeds -/

/-- The tables are as the database server keeps them: numbers and URLs are unique, rows belong to feeds. -/
structure GeoOk (t : GeoTables) : Prop where
  ids : (t.feeds.map (·.1)).Nodup
  urls : (t.feeds.map (·.2.url)).Nodup
  next : ∀ x ∈ t.feeds, x.1 < t.next
  foreign : ∀ r ∈ t.rows, ∃ x ∈ t.feeds, x.1 = r.1

/-- A network refers to this URL. -/
def Linked (t : GeoTables) (url : CStr) : Prop := ∃ n, (n, url) ∈ t.links

/-- What is known about the feed with this URL; nothing is known about a new one. -/
def feedAt (t : GeoTables) (url : CStr) : Geofeed :=
  ((t.feeds.map (·.2)).find? fun f => decide (f.url = url)).getD ⟨url, none, none, none⟩

/-- The rows of the feed with this URL. -/
def feedRows (t : GeoTables) (url : CStr) : List GeoRow :=
  (t.rows.filter fun r => t.feeds.any fun x => decide (x.1 = r.1 ∧ x.2.url = url)).map (·.2)

/-- The last update of this feed is at least so long ago, or there was none. -/
def NotSince (seconds now : Nat) (f : Geofeed) : Prop := ∀ u, f.updated = some u → u + seconds ≤ now

def week : Nat := 7 * 24 * 3600

/-- Fetching the feed ends the whole command. -/
def Fatal (e : GeoEnv) (url : CStr) : Prop :=
  e.retrieve url = .raised ∨
  (∃ code text, e.retrieve url = .http code text ∧ 0 ∈ text) ∨
  (∃ text, e.retrieve url = .failed text ∧ 0 ∈ text) ∨
  (∃ f, e.retrieve url = .file f false) ∨
  ∃ f lines, e.retrieve url = .file f true ∧ IsLines f lines ∧ ∃ l ∈ lines, GeoFatal e l

/-- What fetching a feed makes of what is known about it, and of its rows. -/
inductive Refreshed (e : GeoEnv) (url : CStr) (old : Geofeed) (oldRows : List GeoRow) : Geofeed → List GeoRow → Prop
  | file (f : Bytes) (rows : List GeoRow) (h : e.retrieve url = .file f true) (hr : GeoContents e f rows) :
      Refreshed e url old oldRows ⟨url, none, none, some e.now⟩ rows
  | gone (text : Bytes) (h : e.retrieve url = .http 404 text) : Refreshed e url old oldRows ⟨url, some 404, some text, old.updated⟩ []
  | refused (code : Nat) (text : Bytes) (h : e.retrieve url = .http code text) (hc : code ≠ 404) :
      Refreshed e url old oldRows ⟨url, some code, some text, old.updated⟩ oldRows
  | failed (text : Bytes) (h : e.retrieve url = .failed text) : Refreshed e url old oldRows ⟨url, some 599, some text, old.updated⟩ oldRows

/-! ## Use -/

/-- The feed with this URL may speak for this network, because that is part of a network that refers to it. -/
def MaySpeak (t : GeoTables) (url : CStr) (n : Network) : Prop :=
  ∃ l, (l, url) ∈ t.links ∧ l.family = n.family ∧ ∀ a, Contains n a → Contains l a

/-! ## Countries -/

/-- Code of the country, code of the continent, name: separated by white space, which the name may contain. -/
def AboutCountry (line code continent name : Bytes) : Prop :=
  ∃ s w1 w2 w3, EndTrimmed line s ∧ s.head? ≠ some 35 ∧ s = w1 ++ code ++ w2 ++ continent ++ w3 ++ name ∧
    (∀ c ∈ w1 ++ w2 ++ w3, White c) ∧ w2 ≠ [] ∧ w3 ≠ [] ∧ code ≠ [] ∧ continent ≠ [] ∧
    (∀ c ∈ code ++ continent, ¬ White c) ∧ ∃ c, name.head? = some c ∧ ¬ White c

/-- The first of the lines about this country says this. -/
def FirstLine (lines : List Bytes) (code continent name : Bytes) : Prop :=
  ∃ pre line post, lines = pre ++ line :: post ∧ AboutCountry line code continent name ∧
    ∀ l ∈ pre, ∀ continent' name', ¬ AboutCountry l code continent' name'

end Loc.Spec
