import Verif.Model.Text
import Verif.Model.Format
/-
Specification vocabulary for dates: the Gregorian calendar, counted day by day from 1 January 1970, a Thursday.
-/
namespace Loc.Spec

/-- A date: year, month from 1 to 12, day from 1 -/
structure Date where
  year : Nat
  month : Nat
  day : Nat
deriving DecidableEq

/-- Every fourth year is a leap year, but not the centuries that 400 does not divide. -/
def LeapYear (y : Nat) : Prop := 4 ∣ y ∧ (100 ∣ y → 400 ∣ y)

instance (y : Nat) : Decidable (LeapYear y) := inferInstanceAs (Decidable (_ ∧ _))

/-- The number of days of a month -/
def monthLength (y m : Nat) : Nat :=
  if m = 2 then (if LeapYear y then 29 else 28) else if m = 4 ∨ m = 6 ∨ m = 9 ∨ m = 11 then 30 else 31

/-- The day after -/
def nextDay (d : Date) : Date :=
  if d.day < monthLength d.year d.month then { d with day := d.day + 1 }
  else if d.month < 12 then ⟨d.year, d.month + 1, 1⟩
  else ⟨d.year + 1, 1, 1⟩

/-- The date `n` days after 1 January 1970 -/
def dateOfDay : Nat → Date
  | 0 => ⟨1970, 1, 1⟩
  | n + 1 => nextDay (dateOfDay n)

/-- The day of the week of the `n`-th day after 1 January 1970, counted from Sunday: the first is a Thursday. -/
def weekday : Nat → Nat
  | 0 => 4
  | n + 1 => (weekday n + 1) % 7

/-- Sun, Mon, ... -/
def dayName (i : Nat) : CStr :=
  match i with
  | 0 => [83, 117, 110] | 1 => [77, 111, 110] | 2 => [84, 117, 101] | 3 => [87, 101, 100] | 4 => [84, 104, 117] | 5 => [70, 114, 105]
  | _ => [83, 97, 116]

/-- Jan, Feb, ... -/
def monthName (m : Nat) : CStr :=
  match m with
  | 1 => [74, 97, 110] | 2 => [70, 101, 98] | 3 => [77, 97, 114] | 4 => [65, 112, 114] | 5 => [77, 97, 121] | 6 => [74, 117, 110]
  | 7 => [74, 117, 108] | 8 => [65, 117, 103] | 9 => [83, 101, 112] | 10 => [79, 99, 116] | 11 => [78, 111, 118] | _ => [68, 101, 99]

/-- A number in decimal with `k` digits -/
def digits : Nat → Nat → CStr
  | 0, _ => []
  | k + 1, n => digits k (n / 10) ++ [BitVec.ofNat 8 (48 + n % 10)]

/-- The date of HTTP (RFC 9110, IMF-fixdate) of the time `days`, `h`, `m`, `s`: "Thu, 01 Jan 1970 00:00:00 GMT" -/
def httpDate (days h m s : Nat) : CStr :=
  dayName (weekday days) ++ [44, 32] ++ digits 2 (dateOfDay days).day ++ [32] ++ monthName (dateOfDay days).month ++ [32] ++
  digits 4 (dateOfDay days).year ++ [32] ++ digits 2 h ++ [58] ++ digits 2 m ++ [58] ++ digits 2 s ++ [32, 71, 77, 84]

/-! ## DNS replies -/

/-- A resource record of a DNS reply: the name, the type (CNAME: 5, TXT: 16), class and time to live (6 bytes), the data -/
structure Record where
  name : Bytes
  type : Nat
  classTtl : Bytes
  data : Bytes

/-- RFC 1035, 4.1.3 -/
def Record.bytes (r : Record) : Bytes := r.name ++ be16 r.type ++ r.classTtl ++ be16 r.data.length ++ r.data

/-- `dn` finds the names of the records, which follow each other from position `p` on. -/
def NamesAt (dn : Bytes → Nat → Nat → Option Nat) (ans : Bytes) (stop : Nat) : Nat → List Record → Prop
  | _, [] => True
  | p, r :: rs => dn ans stop p = some r.name.length ∧ NamesAt dn ans stop (p + r.bytes.length) rs

/-- A reply in a buffer of 512 bytes: header, the question (name, TXT, class), aliases, the TXT record with a first string
    `text`, and the unused rest of the buffer.  The reply does not fill the buffer (C43). -/
structure TxtReply (dn : Bytes → Nat → Nat → Option Nat) (ans : Bytes) (stop : Nat) (text : CStr) : Prop where
  layout : ∃ (header question qclass : Bytes) (aliases : List Record) (txt : Record) (more rest : Bytes),
    ans = header ++ question ++ be16 16 ++ qclass ++ aliases.flatMap Record.bytes ++ txt.bytes ++ rest ∧
    header.length = 12 ∧ qclass.length = 2 ∧ ans.length = 512 ∧ stop + rest.length = 512 ∧ rest ≠ [] ∧
    dn ans stop 12 = some question.length ∧ NamesAt dn ans stop (12 + question.length + 4) (aliases ++ [txt]) ∧
    (∀ r ∈ aliases, r.type = 5 ∧ r.classTtl.length = 6) ∧ txt.type = 16 ∧ txt.classTtl.length = 6 ∧
    txt.data = BitVec.ofNat 8 text.length :: (text ++ more)
  nonempty : text ≠ []
  short : text.length < 256

end Loc.Spec
