import Verif.Spec.Network
import Verif.Model.Format
/-
Specification vocabulary for database files: the documented on-disk format, read directly from the
bytes.
-/
namespace Loc.Spec

/-- The big-endian number in `len` bytes at an offset of a file. -/
def number (f : Bytes) (off len : Nat) : Nat := ((f.drop off).take len).foldl (fun acc b => acc * 256 + b.toNat) 0

/-- The 32 bit big-endian number at an offset of a file. -/
def word (f : Bytes) (off : Nat) : Nat := number f off 4

/-- The tree section (its offset is stored at 44) consists of nodes of three words: the node below for a zero bit,
    the node below for a one bit (0: there is none), the network (0xffffffff: there is none). -/
def nodeWord (f : Bytes) (i k : Nat) : Nat := word f (word f 44 + 12 * i + 4 * k)

/-- Follow bits from node `i` on. -/
def walk (f : Bytes) : List Bool → Nat → Option Nat
  | [], i => some i
  | b :: bs, i => if nodeWord f i (if b then 1 else 0) = 0 then none else walk f bs (nodeWord f i (if b then 1 else 0))

/-- The network section (offset at 36, length at 40) consists of records of twelve bytes: country code (2), padding (2),
    AS number (4), flags (2), padding (2). -/
def recordProps (f : Bytes) (j : Nat) : CStr × BitVec 32 × BitVec 32 :=
  let off := word f 36 + 12 * j
  let c := (f.drop off).take 2
  (c.takeWhile (· ≠ 0), BitVec.ofNat 32 (number f (off + 4) 4), BitVec.ofNat 32 (number f (off + 8) 2))

/-- The bits all addresses of a network share. -/
def prefixBits (n : Network) : List Bool := (List.range n.pfx).map (bit n.first)

end Loc.Spec
