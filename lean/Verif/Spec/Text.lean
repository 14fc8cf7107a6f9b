import Verif.Spec.Network
/-
Specification vocabulary for texts: numerals, IPv4 and IPv6 addresses in text form (RFC 4291,
section 2.2), reverse DNS names.  46 is '.', 47 is '/', 58 is ':', 42 is '*', 48 is '0'.
-/
namespace Loc.Spec

/-- The digits "0123456789abcdef" -/
def glyphs : CStr := [48, 49, 50, 51, 52, 53, 54, 55, 56, 57, 97, 98, 99, 100, 101, 102]

/-- The capital letters "ABCDEF" -/
def capitals : CStr := [65, 66, 67, 68, 69, 70]

/-- The digit that a character stands for. -/
def digitOf (c : Byte) : Option Nat := glyphs.findIdx? (· == c)

/-- The hexadecimal digit that a character stands for, in either case. -/
def anyDigitOf (c : Byte) : Option Nat :=
  match digitOf c with
  | some d => some d
  | none => (capitals.findIdx? (· == c)).map (10 + ·)

/-- The number with these digits. -/
def ofDigits (base : Nat) (ds : List Nat) : Nat := ds.foldl (fun acc d => acc * base + d) 0

/-- `s` is the numeral of `k`, without leading zeroes. -/
def Numeral (base k : Nat) (s : CStr) : Prop :=
  ∃ ds : List Nat, s.map digitOf = ds.map some ∧ (∀ d ∈ ds, d < base) ∧ ds ≠ [] ∧ (1 < ds.length → ds.head? ≠ some 0) ∧
    ofDigits base ds = k

/-- `s` is a decimal number, possibly with leading zeroes, of value `k`. -/
def Digits (k : Nat) (s : CStr) : Prop :=
  ∃ ds : List Nat, s.map digitOf = ds.map some ∧ (∀ d ∈ ds, d < 10) ∧ ds ≠ [] ∧ ofDigits 10 ds = k

/-- One to four hexadecimal digits. -/
def Hextet (v : Nat) (s : CStr) : Prop :=
  ∃ ds : List Nat, s.map anyDigitOf = ds.map some ∧ ds ≠ [] ∧ ds.length ≤ 4 ∧ ofDigits 16 ds = v

/-- The two octets of a 16-bit number. -/
def octets16 (v : Nat) : List Byte := [BitVec.ofNat 8 (v / 256), BitVec.ofNat 8 (v % 256)]

/-- `s` is an IPv4 address in dotted decimal form and `l` are its four octets. -/
def IPv4Text (s : CStr) (l : List Byte) : Prop :=
  ∃ a b c d : Nat, ∃ sa sb sc sd, Numeral 10 a sa ∧ Numeral 10 b sb ∧ Numeral 10 c sc ∧ Numeral 10 d sd ∧
    a < 256 ∧ b < 256 ∧ c < 256 ∧ d < 256 ∧ s = sa ++ 46 :: sb ++ 46 :: sc ++ 46 :: sd ∧
    l = [BitVec.ofNat 8 a, BitVec.ofNat 8 b, BitVec.ofNat 8 c, BitVec.ofNat 8 d]

/-- One or more groups separated by colons; the last one may be an IPv4 address. -/
inductive Groups : CStr → List Byte → Prop
  | last {s : CStr} {v : Nat} (h : Hextet v s) : Groups s (octets16 v)
  | quad {s : CStr} {l : List Byte} (h : IPv4Text s l) : Groups s l
  | cons {h s : CStr} {v : Nat} {l : List Byte} (hh : Hextet v h) (hs : Groups s l) : Groups (h ++ 58 :: s) (octets16 v ++ l)

/-- Any number of groups, each followed by a colon. -/
inductive Front : CStr → List Byte → Prop
  | nil : Front [] []
  | cons {h s : CStr} {v : Nat} {l : List Byte} (hh : Hextet v h) (hs : Front s l) : Front (h ++ 58 :: s) (octets16 v ++ l)

/-- `s` is an IPv6 address in text form and `l` are its 16 octets. -/
inductive IPv6Text : CStr → List Byte → Prop
  /-- all eight groups -/
  | full {s : CStr} {l : List Byte} (h : Groups s l) (hl : l.length = 16) : IPv6Text s l
  /-- `::`, which stands for at least one group of zeroes: groups followed by a colon (or one colon
      if there are none), another colon, and more groups (or none) -/
  | short {s t : CStr} {f b : List Byte} (hf : Front s f) (hb : (t = [] ∧ b = []) ∨ Groups t b) (hl : f.length + b.length < 16) :
      IPv6Text ((if s = [] then [58] else s) ++ 58 :: t) (f ++ List.replicate (16 - (f.length + b.length)) 0 ++ b)

/-- The text denotes the address: an IPv6 address, or an IPv4 address, which stands for the
    corresponding address in ::ffff:0:0/96. -/
def Denotes (s : CStr) (a : Addr) : Prop :=
  IPv6Text s a.toList ∨ ∃ l, IPv4Text s l ∧ a.toList = [0,0,0,0, 0,0,0,0, 0,0,0xff,0xff] ++ l

/-- The largest prefix for an address in this text form. -/
def LargestPrefix (s : CStr) (m : Nat) : Prop :=
  ((∃ l, IPv6Text s l) ∧ m = 128) ∨ ((∃ l, IPv4Text s l) ∧ m = 32)

/-- The part of a string in front of the first slash. -/
def beforeSlash (s : CStr) : CStr := s.takeWhile (· != 47)

/-- Every label followed by a dot. -/
def dotted (labels : List CStr) : CStr := labels.flatMap (fun l => l ++ [46])

/-- The `i`-th nibble of an address, from the left. -/
def nibbleAt (a : Addr) (i : Nat) : Nat := value a / 2 ^ (124 - 4 * i) % 16

/-- The `i`-th octet of an IPv4 address, from the left. -/
def octet4At (a : Addr) (i : Nat) : Nat := value a / 2 ^ (24 - 8 * i) % 256

/-- "*" if the network has more than one address -/
def wildcard (n : Network) : List CStr := if n.pfx = 128 then [] else [[42]]

end Loc.Spec
