import Verif.Model.Whois
import Verif.Model.Import
/-
Model of importing routes from BIRD: `scripts/location-importer.in`, `handle_update_announcements` (1588-1650),
`_handle_update_announcements_from_bird` (1652-1720) and `_bird_cmd` (1722-1768).

Simplified: replies consist of ASCII (otherwise `decode` may raise an exception); connecting and sending succeeds.
-/
namespace Loc

/-! ## Regular expressions -/

/-- A regular expression: the ways to match the start of a text, in the order in which `re` tries them, each with the rest of
    the text. -/
abbrev Rx (α : Type) := Bytes → List (α × Bytes)

/-- `.` -/
def reDot (c : Byte) : Bool := c != 10

/-- `\s` in an expression for bytes -/
def reSpace (c : Byte) : Bool := c == 32 || (decide (9 ≤ c.toNat) && decide (c.toNat ≤ 13))

/-- `\d` in an expression for bytes -/
def reDigit (c : Byte) : Bool := decide (48 ≤ c.toNat) && decide (c.toNat ≤ 57)

/-- One byte -/
def rxOne (p : Byte → Bool) : Rx Byte
  | [] => []
  | c :: s => if p c then [(c, s)] else []

/-- `x*?` for bytes: the shortest first -/
def rxLazy (p : Byte → Bool) : Rx Bytes
  | [] => [([], [])]
  | c :: s => ([], c :: s) :: if p c then (rxLazy p s).map fun r => (c :: r.1, r.2) else []

/-- `x*` for bytes: the longest first -/
def rxGreedy (p : Byte → Bool) : Rx Bytes
  | [] => [([], [])]
  | c :: s => (if p c then (rxGreedy p s).map fun r => (c :: r.1, r.2) else []) ++ [([], c :: s)]

/-- `x+?` -/
def rxLazy1 (p : Byte → Bool) : Rx Bytes := fun s =>
  (rxOne p s).flatMap fun x => (rxLazy p x.2).map fun r => (x.1 :: r.1, r.2)

/-- `x+` -/
def rxGreedy1 (p : Byte → Bool) : Rx Bytes := fun s =>
  (rxOne p s).flatMap fun x => (rxGreedy p x.2).map fun r => (x.1 :: r.1, r.2)

/-- A text as it is -/
def rxText (t : Bytes) : Rx Unit := fun s => if t.isPrefixOf s then [((), s.drop t.length)] else []

/-- `$`: at the end, or in front of a newline at the end -/
def rxEnd : Rx Unit := fun s => if s = [] ∨ s = [10] then [((), s)] else []

/-- `(?:AS(.*?))?` -/
def rxAs : Rx (Option Bytes) := fun s =>
  ((rxText [65, 83] s).flatMap fun x => (rxLazy reDot x.2).map fun r => (some r.1, r.2)) ++ [(none, s)]

/-- `(?:AS(.*?))?.\]$` -/
def rxOrigin : Rx (Option Bytes) := fun s =>
  (rxAs s).flatMap fun g =>
    (rxOne reDot g.2).flatMap fun x =>
      (rxText [93] x.2).flatMap fun x => (rxEnd x.2).map fun x => (g.1, x.2)

/-- `re.match(b"^\s(.+?)\s+.+?\[(?:AS(.*?))?.\]$", line)`, location-importer.in:1654: the groups -/
def routeRe (line : Bytes) : Option (Bytes × Option Bytes) :=
  ((rxOne reSpace line).flatMap fun x =>
    (rxLazy1 reDot x.2).flatMap fun net =>
      (rxGreedy1 reSpace net.2).flatMap fun x =>
        (rxLazy1 reDot x.2).flatMap fun x =>
          (rxText [91] x.2).flatMap fun x => (rxOrigin x.2).map fun g => (net.1, g.1)).head?

/-- "BGP.as_path:" -/
def strAsPath : CStr := [66, 71, 80, 46, 97, 115, 95, 112, 97, 116, 104, 58]

/-- `re.match(b"\s+BGP\.as_path:.* (\d+) {\d+}$", line)`, location-importer.in:1707: the group -/
def pathRe (line : Bytes) : Option Bytes :=
  ((rxGreedy1 reSpace line).flatMap fun x =>
    (rxText strAsPath x.2).flatMap fun x =>
      (rxGreedy reDot x.2).flatMap fun x =>
        (rxText [32] x.2).flatMap fun x =>
          (rxGreedy1 reDigit x.2).flatMap fun d =>
            (rxText [32, 123] d.2).flatMap fun x =>
              (rxGreedy1 reDigit x.2).flatMap fun x =>
                (rxText [125] x.2).flatMap fun x => (rxEnd x.2).map fun _ => d.1).head?

/-! ## The connection to BIRD -/

/-- What becomes of a line, location-importer.in:1751-1768: the end of the output, the greeting, or something to return. -/
inductive BirdLine
  | stop
  | skip
  | line (s : Bytes)
  deriving DecidableEq, Repr

def birdLine (line : Bytes) : BirdLine :=
  match line with
  | a :: b :: c :: d :: e :: rest =>
    if reDigit a && reDigit b && reDigit c && reDigit d && (e == 32 || e == 45) then
      if [a, b, c, d] = [48, 48, 48, 48] then .stop
      else if [a, b, c, d] = [48, 48, 48, 49] then .skip
      else .line rest
    else .line line
  | _ => .line line

/-- The first line, with the newline, and the rest; `none` if there is no newline -/
def cutNewline : Bytes → Option (Bytes × Bytes)
  | [] => none
  | c :: s => if c = 10 then some ([10], s) else (cutNewline s).map fun r => (c :: r.1, r.2)

/-- The inner loop, location-importer.in:1739-1768: the lines that are returned, and what remains in the buffer (`none`: the
    end of the output was found).  A newline at the start of the buffer (`pos <= 0`) is left there.  Every step takes at
    least one byte from the buffer, so its length is enough as `fuel`. -/
def birdLines : (fuel : Nat) → Bytes → List Bytes × Option Bytes
  | 0, buffer => ([], some buffer)
  | fuel + 1, buffer =>
    if buffer.head? = some 10 then ([], some buffer)
    else
      match cutNewline buffer with
      | none => ([], some buffer)
      | some (line, rest) =>
        match birdLine line with
        | .stop => ([], none)
        | .skip => birdLines fuel rest
        | .line l =>
          match birdLines fuel rest with
          | (ls, buffer) => (l :: ls, buffer)

/-- The outer loop, location-importer.in:1735-1737, with what `recv` returns each time: the lines that are returned, and
    whether the end of the output was found.  If not, `recv` blocks after the last one, or, if the connection was closed,
    returns nothing again and again: the generator never ends. -/
def birdRead (buffer : Bytes) : List Bytes → List Bytes × Bool
  | [] => ([], false)
  | c :: cs =>
    match birdLines (buffer ++ c).length (buffer ++ c) with
    | (ls, none) => (ls, true)
    | (ls, some rest) =>
      match birdRead rest cs with
      | (ls', ended) => (ls ++ ls', ended)

/-! ## The table -/

/-- `announcements`, location-importer.in:195-203: the network, which is unique, its AS, and the time when it was last seen,
    in seconds. -/
abbrev AnnounceTable := List (Network × Nat × Nat)

/-- The server that knows the routes, the current time, and the database server.
    `bird command` is what `recv` returns after `command`. -/
structure AnnounceEnv where
  bird : Bytes → List Bytes
  now : Nat

/-- Reading a `bigint`.  Simplified: signs and spaces are not accepted. -/
def sqlBigint (s : Bytes) : Option Nat := (digitsOf s).bind fun k => if k < 2 ^ 63 then some k else none

/-- `INSERT INTO announcements …`, location-importer.in:1694-1698 and 1713-1717; `none`: an error of the database, which cannot
    read the values. -/
def announce (e : AnnounceEnv) (t : AnnounceTable) (net asn : Bytes) : Option AnnounceTable :=
  match ipNetwork net with
  | none => none
  | some n =>
    match sqlBigint asn with
    | none => none
    | some a => some (putOver t n (a, e.now) fun _ => (a, e.now))

/-- "show route" -/
def strShowRoute : CStr := [115, 104, 111, 119, 32, 114, 111, 117, 116, 101]

/-- "show route %s all" -/
def showRouteAll (net : Bytes) : CStr := strShowRoute ++ [32] ++ net ++ [32, 97, 108, 108]

/-- location-importer.in:1661-1698: the table and the aggregated networks -/
def importRoutes (e : AnnounceEnv) (t : AnnounceTable) (aggregated : List Bytes) :
    List Bytes → Option (AnnounceTable × List Bytes)
  | [] => some (t, aggregated)
  | line :: lines =>
    match routeRe line with
    | none => importRoutes e t aggregated lines
    | some (net, none) => importRoutes e t (aggregated ++ [net]) lines
    | some (net, some []) => importRoutes e t (aggregated ++ [net]) lines
    | some (net, some (c :: asn)) =>
      match announce e t net (c :: asn) with
      | none => none
      | some t => importRoutes e t aggregated lines

/-- How the command ends: with a table, with an error of the database, whereupon everything is undone, or never. -/
inductive AnnounceEnd
  | done (t : AnnounceTable)
  | failed
  | endless
  deriving DecidableEq, Repr

/-- location-importer.in:1700-1720 -/
def importAggregated (e : AnnounceEnv) (t : AnnounceTable) : List Bytes → AnnounceEnd
  | [] => .done t
  | net :: nets =>
    match birdRead [] (e.bird (showRouteAll net)) with
    | (lines, ended) =>
      match lines.findSome? pathRe with
      | some asn =>
        match announce e t net asn with
        | none => .failed
        | some t => importAggregated e t nets
      | none => if ended then importAggregated e t nets else .endless

/-- `_handle_update_announcements_from_bird`, location-importer.in:1652-1720 -/
def importBird (e : AnnounceEnv) (t : AnnounceTable) : AnnounceEnd :=
  match birdRead [] (e.bird strShowRoute) with
  | (lines, ended) =>
    match importRoutes e t [] lines with
    | none => .failed
    | some (t, aggregated) => if ended then importAggregated e t aggregated else .endless

/-- A constant of type `inet`, IPv4 -/
def inet4 (a b c d p : Nat) : Network :=
  let x := 0xffff * 2 ^ 32 + a * 2 ^ 24 + b * 2 ^ 16 + c * 2 ^ 8 + d
  ⟨.inet, addrOfNat x, addrOfNat (x + (2 ^ (32 - p) - 1)), 96 + p, 0, 0, 0, 0⟩

/-- A constant of type `inet`, IPv6, with the first 16 bits of the address -/
def inet6 (a p : Nat) : Network :=
  ⟨.inet6, addrOfNat (a * 2 ^ 112), addrOfNat (a * 2 ^ 112 + (2 ^ (128 - p) - 1)), p, 0, 0, 0, 0⟩

/-- location-importer.in:1603-1634, the IPv4 networks in the order of the statements -/
def purged4 : List Network :=
  [inet4 0 0 0 0 8, inet4 127 0 0 0 8, inet4 10 0 0 0 8, inet4 172 16 0 0 12, inet4 192 168 0 0 16, inet4 192 0 0 0 24,
    inet4 192 0 2 0 24, inet4 198 18 0 0 15, inet4 198 51 100 0 24, inet4 203 0 113 0 24, inet4 100 64 0 0 10,
    inet4 169 254 0 0 16, inet4 192 88 99 0 24, inet4 224 0 0 0 4, inet4 240 0 0 0 4]

/-- Does a row survive the statements of location-importer.in:1595-1650?  `<<=` is `sqlContains` with its sides swapped; the
    comparison with a constant of the other family is false. -/
def keepRow (now : Nat) (r : Network × Nat × Nat) : Bool :=
  !(decide (r.1.family = .inet6) && r.1.pfx == 0) && !(decide (r.1.family = .inet) && r.1.pfx == 96) &&
  !(decide (r.1.family = .inet6) && !sqlContains (inet6 0x2000 3) r.1) &&
  !(purged4.any fun b => decide (r.1.family = .inet) && sqlContains b r.1) &&
  !(decide (r.1.family = .inet6) && sqlContains (inet6 0x2002 16) r.1) &&
  !(decide (r.1.family = .inet6) && decide (netPrefix r.1 > 48)) &&
  !(decide (r.1.family = .inet) && decide (netPrefix r.1 > 24)) &&
  checkAsn r.2.1 &&
  !decide (r.2.2 + 14 * 86400 ≤ now)

/-- `handle_update_announcements`, location-importer.in:1588-1650 -/
def updateAnnouncements (e : AnnounceEnv) (server : Bytes) (t : AnnounceTable) : AnnounceEnd :=
  if server.head? = some 47 then
    match importBird e t with
    | .done t => .done (t.filter (keepRow e.now))
    | r => r
  else .done (t.filter (keepRow e.now))

end Loc
