import Verif.Model.Resolv
import Verif.Model.Text
import Verif.Model.Enumerator
/-
Model of dates: the text `time.strftime("%a, %d %b %Y %H:%M:%S GMT", time.gmtime(t))` which the tools write (location.in:257-259,
343-345, python/location/downloader.py:121-123, 200-202) and `parse_timestamp` of `src/resolv.c`, which reads it.

`gmtime`, `strftime`, `strptime` and `timegm` are modelled after glibc in the C locale (time/offtime.c, time/strftime_l.c,
time/strptime_l.c, time/mktime.c); they are not part of /repo.
-/
namespace Loc

/-- The fields of `struct tm` that are used: `mon` counts from 0, `year` is the year itself, `wday` counts from Sunday. -/
structure Tm where
  sec : Nat
  min : Nat
  hour : Nat
  mday : Nat
  mon : Nat
  year : Nat
  wday : Nat
deriving DecidableEq

/-- glibc `__isleap` -/
def isLeap (y : Nat) : Bool := decide (y % 4 = 0) && (decide (y % 100 ≠ 0) || decide (y % 400 = 0))

/-- The lengths of the months, from glibc's `__mon_yday` -/
def monthLens (y : Nat) : List Nat := [31, if isLeap y then 29 else 28, 31, 30, 31, 30, 31, 31, 30, 31, 30, 31]

/-- The year and the day in the year of a day counted from the first day of the year `y` (the loop of glibc `__offtime`, which
    takes several years at once; here one).  `fuel` bounds the years. -/
def offYear : (fuel days y : Nat) → Nat × Nat
  | 0, days, y => (y, days)
  | fuel + 1, days, y =>
    let len := if isLeap y then 366 else 365
    if days < len then (y, days) else offYear fuel (days - len) (y + 1)

/-- The month and the day in the month (both from 0) of a day in the year: the last loop of glibc `__offtime`. -/
def offMonth : List Nat → Nat → Nat × Nat
  | [], days => (0, days)
  | len :: lens, days =>
    if days < len then (0, days)
    else
      let r := offMonth lens (days - len)
      (r.1 + 1, r.2)

/-- `gmtime` of a time that is not before 1970 -/
def gmtime (t : Nat) : Tm :=
  let days := t / 86400
  let rem := t % 86400
  let y := offYear days days 1970
  let m := offMonth (monthLens y.1) y.2
  ⟨rem % 60, rem % 3600 / 60, rem / 3600, m.2 + 1, m.1, y.1, (4 + days) % 7⟩

/-- The names of the days and months of the C locale, in full -/
def dayNames : List CStr :=
  [[83, 117, 110, 100, 97, 121], [77, 111, 110, 100, 97, 121], [84, 117, 101, 115, 100, 97, 121], [87, 101, 100, 110, 101, 115, 100, 97, 121],
   [84, 104, 117, 114, 115, 100, 97, 121], [70, 114, 105, 100, 97, 121], [83, 97, 116, 117, 114, 100, 97, 121]]

def monthNames : List CStr :=
  [[74, 97, 110, 117, 97, 114, 121], [70, 101, 98, 114, 117, 97, 114, 121], [77, 97, 114, 99, 104], [65, 112, 114, 105, 108], [77, 97, 121],
   [74, 117, 110, 101], [74, 117, 108, 121], [65, 117, 103, 117, 115, 116], [83, 101, 112, 116, 101, 109, 98, 101, 114],
   [79, 99, 116, 111, 98, 101, 114], [78, 111, 118, 101, 109, 98, 101, 114], [68, 101, 99, 101, 109, 98, 101, 114]]

/-- `%a`, `%b`: the abbreviated name; "?" for a number out of range -/
def abbr (names : List CStr) (i : Nat) : CStr :=
  match names[i]? with
  | some s => s.take 3
  | none => [63]

/-- `%d`, `%H`, `%M`, `%S`: two digits -/
def twoDigits (n : Nat) : CStr := [digitChar (n / 10 % 10), digitChar (n % 10)]

/-- " GMT" -/
def strGmt : CStr := [32, 71, 77, 84]

/-- `strftime("%a, %d %b %Y %H:%M:%S GMT", tm)`; years have at most ten digits -/
def dateFormat (tm : Tm) : CStr :=
  abbr dayNames tm.wday ++ 44 :: 32 :: twoDigits tm.mday ++ 32 :: abbr monthNames tm.mon ++ 32 :: decStr tm.year ++
  32 :: twoDigits tm.hour ++ 58 :: twoDigits tm.min ++ 58 :: twoDigits tm.sec ++ strGmt

/-- `time.strftime("%a, %d %b %Y %H:%M:%S GMT", time.gmtime(t))`, location.in:257-259 and the others above -/
def dateText (t : Nat) : CStr := dateFormat (gmtime t)

/-! ## Reading -/

/-- `strncasecmp(name, s, strlen(name)) == 0`: the rest of the string after the name -/
def afterName : CStr → CStr → Option CStr
  | [], s => some s
  | _ :: _, [] => none
  | c :: name, d :: s => if toLower c = toLower d then afterName name s else none

/-- `%a`, `%b` of glibc `strptime`: the first name of which the full or the abbreviated form is found, and the rest -/
def strpName : List CStr → Nat → CStr → Option (Nat × CStr)
  | [], _, _ => none
  | name :: names, i, s =>
    match afterName name s with
    | some rest => some (i, rest)
    | none =>
      match afterName (name.take 3) s with
      | some rest => some (i, rest)
      | none => strpName names (i + 1) s

/-- The value of a digit -/
def strpDigit (c : Byte) : Option Nat := if 48 ≤ c.toNat ∧ c.toNat ≤ 57 then some (c.toNat - 48) else none

/-- The loop of glibc's `get_number`: `while (--n > 0 && val * 10 <= to && *rp is a digit)` -/
def moreDigits (hi : Nat) : Nat → Nat → CStr → Nat × CStr
  | 0, val, s => (val, s)
  | _ + 1, val, [] => (val, [])
  | n + 1, val, c :: s =>
    if val * 10 ≤ hi then
      match strpDigit c with
      | some d => moreDigits hi n (val * 10 + d) s
      | none => (val, c :: s)
    else (val, c :: s)

/-- glibc's `get_number(from, to, n)`: spaces are skipped, at least one digit and at most `n` are read -/
def strpNumber (lo hi n : Nat) : CStr → Option (Nat × CStr)
  | [] => none
  | c :: s =>
    if c = 32 then strpNumber lo hi n s
    else match strpDigit c with
      | none => none
      | some d =>
        let r := moreDigits hi (n - 1) d s
        if r.1 < lo ∨ r.1 > hi then none else some r

/-- A character of the format that is no space and no conversion -/
def strpChar (c : Byte) : CStr → Option CStr
  | [] => none
  | d :: s => if c = d then some s else none

/-- A space in the format: any white space, or none -/
def skipSpace (s : CStr) : CStr := s.dropWhile isSpace

/-- `strptime(s, "%a, %d %b %Y %H:%M:%S GMT", &tm)`: the fields and what follows -/
def readDate (s : CStr) : Option (Tm × CStr) := do
  let (wday, s) ← strpName dayNames 0 s
  let s ← strpChar 44 s
  let (mday, s) ← strpNumber 1 31 2 (skipSpace s)
  let (mon, s) ← strpName monthNames 0 (skipSpace s)
  let (year, s) ← strpNumber 0 9999 4 (skipSpace s)
  let (hour, s) ← strpNumber 0 23 2 (skipSpace s)
  let s ← strpChar 58 s
  let (min, s) ← strpNumber 0 59 2 s
  let s ← strpChar 58 s
  let (sec, s) ← strpNumber 0 61 2 s
  let s ← strpChar 71 (skipSpace s)
  let s ← strpChar 77 s
  let s ← strpChar 84 s
  return (⟨sec, min, hour, mday, mon, year, wday⟩, s)

/-- The days from the first day of 1970 to the first day of a year: 365 each and the leap days between (glibc
    `ydhms_diff`, which counts the years divisible by 4, by 100 and by 400) -/
def yearStart (y : Nat) : Int :=
  365 * ((y : Int) - 1970) + (((y : Int) - 1) / 4 - 492) - (((y : Int) - 1) / 100 - 19) + (((y : Int) - 1) / 400 - 4)

/-- `timegm`: months and days beyond their ends count on; the day of the week is ignored -/
def timegm (tm : Tm) : Int :=
  (yearStart tm.year + ((monthLens tm.year).take tm.mon).sum + (tm.mday - 1)) * 86400 + tm.hour * 3600 + tm.min * 60 + tm.sec

/-- `parse_timestamp`, resolv.c:27-44; `none`: -1 is returned. -/
def parseTimestamp (txt : CStr) : Option Int :=
  match readDate txt with
  | some (tm, []) => some (timegm tm)
  | _ => none

/-- `loc_discover_latest_version`, resolv.c:46-148, with `parse_timestamp`. -/
def discoverLatest (dn : DnExpand) (ans : Bytes) (reply : Int) : Res Int := discover dn parseTimestamp ans reply

end Loc
