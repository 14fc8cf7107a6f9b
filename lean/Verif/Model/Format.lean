import Verif.Model.Basic
/-
Bytes, big-endian integers and the record layouts of `src/libloc/format.h`.
-/
namespace Loc

/-- A file, or the memory a file is mapped to. -/
abbrev Bytes := List Byte

/-- `htobe16` followed by storing the two bytes (writer.c, network.c:657); the argument is truncated
    to 16 bits. -/
def be16 (n : Nat) : Bytes := [BitVec.ofNat 8 (n / 2 ^ 8), BitVec.ofNat 8 n]

/-- `htobe32` and store, e.g. writer.c:293; the argument is truncated to 32 bits. -/
def be32 (n : Nat) : Bytes :=
  [BitVec.ofNat 8 (n / 2 ^ 24), BitVec.ofNat 8 (n / 2 ^ 16), BitVec.ofNat 8 (n / 2 ^ 8), BitVec.ofNat 8 n]

/-- `htobe64` and store, writer.c:674; truncated to 64 bits. -/
def be64 (n : Nat) : Bytes := be32 (n / 2 ^ 32) ++ be32 n

/-- `be16toh`, `be32toh`, `be64toh` of loaded bytes. -/
def beVal (l : Bytes) : Nat := l.foldl (fun acc b => acc * 256 + b.toNat) 0

/-- Reading `len` bytes at offset `off`; bytes outside of the file cannot be read.  (The kernel
    maps whole pages, so that in C a read beyond the end may also yield zero bytes; here every such
    read is a fault.) -/
def rd (f : Bytes) (off len : Nat) : Res Bytes :=
  if off + len ≤ f.length then .ok ((f.drop off).take len) else .error .eof

/-- `LOC_DATABASE_PAGE_SIZE`, format.h:36 -/
def pageSize : Nat := 4096
/-- `LOC_SIGNATURE_MAX_LENGTH`, format.h:37 -/
def sigMax : Nat := 2048
/-- `sizeof(struct loc_database_magic)`, format.h:39-44 -/
def magicSize : Nat := 8
/-- `sizeof(struct loc_database_header_v1)`, format.h:46-84 -/
def headerSize : Nat := 8 + 13 * 4 + 2 * 2 + 2 * sigMax + 32
/-- `sizeof(struct loc_database_network_node_v1)`, format.h:86-91 -/
def nodeSize : Nat := 12
/-- `sizeof(struct loc_database_network_v1)`, format.h:93-107: two bytes, two bytes of alignment
    padding inserted by the compiler, four bytes, two bytes, two bytes -/
def netSize : Nat := 12
/-- `sizeof(struct loc_database_as_v1)`, format.h:109-115 -/
def asSize : Nat := 8
/-- `sizeof(struct loc_database_country_v1)`, format.h:117-123 -/
def countrySize : Nat := 8

/-- `LOC_DATABASE_MAGIC`, format.h:22: "LOCDBXX" -/
def magicBytes : Bytes := [76, 79, 67, 68, 66, 88, 88]

end Loc
