import Verif.Model.Basic
/-
Model of `src/libloc/address.h`.
-/
namespace Loc

/-- `IN6_IS_ADDR_V4MAPPED` (`<netinet/in.h>`): 80 zero bits followed by 16 one bits.  The C macro
    compares 32-bit words; here the same comparison octet by octet. -/
def isV4Mapped (a : Addr) : Bool :=
  (List.range 10).all (fun i => oct a i == 0) && (oct a 10 == 0xff && oct a 11 == 0xff)

/-- `loc_address_family`, address.h:34-39 -/
def addrFamily (a : Addr) : Family := if isV4Mapped a then .inet else .inet6

/-- `loc_address_family_bit_length`, address.h:41-52 (the default case cannot occur, see
    `Family`) -/
def familyBitLength : Family → Nat
  | .inet6 => 128
  | .inet => 32

/-- `loc_address_valid_prefix`, address.h:57-67 -/
def validPrefix (a : Addr) (p : Nat) : Bool := decide (p ≤ familyBitLength (addrFamily a))

/-- The loop of `loc_address_cmp`, address.h:70-76: `r` octets remain, the current index is
    `16 - r`. -/
def addrCmpLoop (a b : Addr) : Nat → Int
  | 0 => 0
  | r + 1 =>
    let i := 15 - r
    if oct a i > oct b i then 1
    else if oct a i < oct b i then -1
    else addrCmpLoop a b r

/-- `loc_address_cmp`, address.h:69-79 -/
def addrCmp (a b : Addr) : Int := addrCmpLoop a b 16

/-- First octet visited by `foreach_octet_in_address(_reverse)`, address.h:81-85.  The macros
    re-evaluate it in every iteration. -/
def loOctet (a : Addr) : Nat := if isV4Mapped a then 12 else 0

/-- Indices visited by `foreach_octet_in_address` on an address that is not modified by the loop,
    address.h:81-82 -/
def octetRange (a : Addr) : List Nat := List.range' (loOctet a) (16 - loOctet a)

/-- `loc_address_all_zeroes`, address.h:87-96 -/
def allZeroes (a : Addr) : Bool := (octetRange a).all (fun i => oct a i == 0)

/-- `loc_address_all_ones`, address.h:98-107 -/
def allOnes (a : Addr) : Bool := (octetRange a).all (fun i => !decide (oct a i < 255))

/-- `loc_address_get_bit`, address.h:109-111, for `i < 128`.  The C function reads outside of the
    address for larger `i`; callers in the model check for that (see `Lookup`). -/
def getBit (a : Addr) (i : Nat) : Bool :=
  ((oct a (i / 8) >>> (7 - i % 8)) &&& 1) != 0

/-- The value xor-ed into an octet by `loc_address_set_bit`, address.h:114.  The C expression is
    evaluated in `unsigned int` and truncated to an octet on assignment; the truncation commutes
    with the bit operations. -/
def setBitOctet (o : Byte) (i : Nat) (v : Bool) : Byte :=
  let val : Byte := if v then 1 else 0
  o ^^^ ((-val ^^^ o) &&& ((1 : Byte) <<< (7 - i % 8)))

/-- `loc_address_set_bit`, address.h:113-115, for `i < 128` (see `getBit`). -/
def setBit (a : Addr) (i : Nat) (v : Bool) : Addr :=
  setOct a (i / 8) (setBitOctet (oct a (i / 8)) i v)

/-- The loop of `loc_prefix_to_bitmask`, address.h:123-128: `i` bits remain, `j` is the current
    octet; `fuel` bounds the iterations (16 suffice for `i ≤ 128`). -/
def bitmaskLoop (m : Addr) (j : Nat) : (i fuel : Nat) → Addr
  | _, 0 => m
  | i, fuel + 1 =>
    if i > 0 then
      if i ≥ 8 then bitmaskLoop (setOct m j 0xff) (j + 1) (i - 8) fuel
      else bitmaskLoop (setOct m j ((0xff : Byte) <<< (8 - i))) (j + 1) (i - 8) fuel
    else m

/-- `loc_prefix_to_bitmask`, address.h:117-131 (for `prefix ≤ 128`, the only values it is called
    with) -/
def prefixToBitmask (p : Nat) : Addr := bitmaskLoop (Vector.replicate 16 0) 0 p 16

/-- Number of trailing zero bits of an octet: `__builtin_ctz`.  `ctz0` is what the builtin returns
    for 0, where its result is undefined. -/
def ctz8 (ctz0 : Nat) (b : Byte) : Nat :=
  if b = 0 then ctz0 else ((List.range 8).find? (fun i => b.getLsbD i)).getD 8

/-- Loop of `loc_address_bit_length`, address.h:145-158; argument `o + 1` means `octet = o`. -/
def bitLengthLoop (ctz0 : Nat) (a : Addr) (bitlength : Nat) : Nat → Nat
  | 0 => 0
  | o + 1 =>
    if o ≥ loOctet a then
      let tz := ctz8 ctz0 (oct a o)
      let tz := if tz > 8 then 8 else tz
      let bitlength := bitlength - tz
      if tz < 8 then bitlength else bitLengthLoop ctz0 a bitlength o
    else 0

/-- `loc_address_bit_length`, address.h:133-161.  `ctz0`: see `ctz8`. -/
def bitLength (ctz0 : Nat) (a : Addr) : Nat :=
  bitLengthLoop ctz0 a (if isV4Mapped a then 32 else 128) 16

/-- `__builtin_clz` of a non-zero octet promoted to a 32-bit `unsigned int`. -/
def clz32 (b : Byte) : Nat := 31 - b.toNat.log2

/-- Loop of `loc_address_common_bits`, address.h:174-185: `r` octets remain. -/
def commonBitsLoop (a b : Addr) (bits : Nat) : Nat → Nat
  | 0 => bits
  | r + 1 =>
    let i := 15 - r
    if oct a i == oct b i then commonBitsLoop a b (bits + 8) r
    else bits + (clz32 (oct a i ^^^ oct b i) - 24)

/-- `loc_address_common_bits`, address.h:163-188 -/
def commonBits (a b : Addr) : Res Nat :=
  if isV4Mapped a && !isV4Mapped b then .error (.err EINVAL)
  else if !isV4Mapped a && isV4Mapped b then .error (.err EINVAL)
  else .ok (commonBitsLoop a b 0 (16 - loOctet a))

/-- `loc_address_reset`, address.h:190-208 -/
def addrReset : Family → Addr
  | .inet6 => Vector.replicate 16 0
  | .inet => #v[0,0,0,0, 0,0,0,0, 0,0,0xff,0xff, 0,0,0,0]

/-- `loc_address_reset_last`, address.h:210-228 -/
def addrResetLast : Family → Addr
  | .inet6 => Vector.replicate 16 0xff
  | .inet => #v[0,0,0,0, 0,0,0,0, 0,0,0xff,0xff, 0xff,0xff,0xff,0xff]

/-- `loc_address_and`, address.h:230-239 (32-bit words in C, octets here) -/
def addrAnd (a m : Addr) : Addr := Vector.ofFn fun i => a[i] &&& m[i]

/-- `loc_address_or`, address.h:241-250: `a | ~m` -/
def addrOr (a m : Addr) : Addr := Vector.ofFn fun i => a[i] ||| ~~~m[i]

/-- Loop of `loc_address_sub`, address.h:271-278; argument `o + 1` means `octet = o`. -/
def addrSubLoop (a b : Addr) (res : Addr) (remainder : Int) : Nat → Addr
  | 0 => res
  | o + 1 =>
    if o ≥ loOctet a then
      let x : Int := ((oct a o).toNat : Int) - ((oct b o).toNat : Int) + remainder
      addrSubLoop a b (setOct res o (BitVec.ofInt 8 x)) (x / 256) o
    else res

/-- `loc_address_sub`, address.h:252-281 -/
def addrSub (a b : Addr) : Res Addr :=
  if addrFamily a ≠ addrFamily b then .error (.err EINVAL)
  else .ok (addrSubLoop a b (addrReset (addrFamily a)) 0 16)

/-- Loop of `loc_address_increment`, address.h:288-296; argument `o + 1` means `octet = o`.  The
    lower bound is re-evaluated on the partially updated address as in C. -/
def addrIncLoop (a : Addr) : Nat → Addr
  | 0 => a
  | o + 1 =>
    if o ≥ loOctet a then
      if oct a o < 255 then setOct a o (oct a o + 1)
      else addrIncLoop (setOct a o 0) o
    else a

/-- `loc_address_increment`, address.h:283-297 -/
def addrInc (a : Addr) : Addr := if allOnes a then a else addrIncLoop a 16

/-- Loop of `loc_address_decrement`, address.h:304-312; see `addrIncLoop`. -/
def addrDecLoop (a : Addr) : Nat → Addr
  | 0 => a
  | o + 1 =>
    if o ≥ loOctet a then
      if oct a o > 0 then setOct a o (oct a o - 1)
      else addrDecLoop (setOct a o 255) o
    else a

/-- `loc_address_decrement`, address.h:299-313 -/
def addrDec (a : Addr) : Addr := if allZeroes a then a else addrDecLoop a 16

/-- `loc_address_get_octet`, address.h:315-328.  The IPv4 case shifts the 32-bit word read in host
    byte order; modelled for little-endian hosts, where this selects octet `12 + i`.  For IPv6 the
    C code lets indices up to 31 pass although there are only 16 octets. -/
def getOctet (a : Addr) (i : Nat) : Res Byte :=
  if isV4Mapped a then
    if i ≥ 4 then .error (.err ERANGE) else .ok (oct a (12 + i))
  else
    if i ≥ 32 then .error (.err ERANGE)
    else if i ≥ 16 then .error .oob
    else .ok (oct a i)

/-- `loc_address_get_nibble`, address.h:330-344 -/
def getNibble (a : Addr) (i : Nat) : Res Byte := do
  let octet ← getOctet a (i / 2)
  let octet := if i % 2 == 0 then octet >>> 4 else octet
  return octet &&& 0x0f

end Loc
