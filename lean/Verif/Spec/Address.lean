import Verif.Model.Basic
/-
Specification vocabulary for addresses: plain arithmetic, independent of the model's functions.
-/
namespace Loc.Spec

/-- The 128-bit number whose big-endian representation are the 16 octets of the address. -/
def value (a : Addr) : Nat := a.toList.foldl (fun acc b => acc * 256 + b.toNat) 0

/-- Bit `i` of an address, counted from the most significant bit. -/
def bit (a : Addr) (i : Nat) : Bool := (value a).testBit (127 - i)

/-- IPv4 addresses are those in ::ffff:0:0/96. -/
def IsV4 (a : Addr) : Prop := value a / 2 ^ 32 = 0xffff

instance (a : Addr) : Decidable (IsV4 a) := inferInstanceAs (Decidable (_ = _))

/-- Number of bits of an address of the family of `a`. -/
def width (a : Addr) : Nat := if IsV4 a then 32 else 128

/-- Two addresses agree on their first `p` bits. -/
def AgreeOn (p : Nat) (a b : Addr) : Prop := value a / 2 ^ (128 - p) = value b / 2 ^ (128 - p)

/-- Number of the last address of the family of `a`: 255.255.255.255 or ffff:...:ffff. -/
def familyLast (a : Addr) : Nat := if IsV4 a then 0xffffffffffff else 2 ^ 128 - 1

/-- Number of the first address of the family of `a`: 0.0.0.0 or ::. -/
def familyFirst (a : Addr) : Nat := if IsV4 a then 0xffff00000000 else 0

/-- Position of the first address bit of the family: IPv4 addresses are the last 32 bits. -/
def familyStart (a : Addr) : Nat := if IsV4 a then 96 else 0

end Loc.Spec
