import Verif.Model.Logging
/-
Specification vocabulary for logging.
-/
namespace Loc.Spec

/-! ## The environment variable -/

/-- `s` begins with a number: white space, a sign, digits; then it ends, or there is white space. -/
def NumberText (s : Bytes) (neg : Bool) (digits : Bytes) : Prop :=
  ∃ blank sign rest, s = blank ++ sign ++ digits ++ rest ∧ (∀ c ∈ blank, cSpace c = true) ∧
    (if neg then sign = [45] else sign = [] ∨ sign = [43]) ∧ digits ≠ [] ∧ (∀ c ∈ digits, 48 ≤ c.toNat ∧ c.toNat ≤ 57) ∧
    ∀ c, rest.head? = some c → cSpace c = true

/-- The number that digits stand for, the last of them counting once. -/
def valueOf : List Byte → Nat
  | [] => 0
  | c :: cs => (c.toNat - 48) * 10 ^ cs.length + valueOf cs

/-- `s` begins with the name of a level: err, info, debug. -/
def LevelName (s : Bytes) (level : Int) : Prop :=
  ([101, 114, 114] <+: s ∧ level = 3) ∨ ([105, 110, 102, 111] <+: s ∧ level = 6) ∨ ([100, 101, 98, 117, 103] <+: s ∧ level = 7)

/-! ## Messages -/

/-- The priority that was set last -/
def lastPriority (start : Int) (ops : List LogOp) : Int :=
  ((ops.filterMap fun | .priority p => some p | _ => none).getLast?).getD start

/-- The callback that was set last -/
def lastCallback (ops : List LogOp) : Nat × Nat :=
  ((ops.filterMap fun | .callback c => some c | _ => none).getLast?).getD (0, 0)

/-! ## Dumps -/

/-- The value of a hexadecimal digit -/
def hexValue (c : Byte) : Option Nat :=
  if 48 ≤ c.toNat ∧ c.toNat ≤ 57 then some (c.toNat - 48) else if 97 ≤ c.toNat ∧ c.toNat ≤ 102 then some (c.toNat - 87) else none

/-- `t` is the number `n` in hexadecimal digits. -/
inductive HexText : Bytes → Nat → Prop
  | nil : HexText [] 0
  | snoc {t : Bytes} {n : Nat} {c : Byte} {v : Nat} : HexText t n → hexValue c = some v → HexText (t ++ [c]) (16 * n + v)

/-- The bytes in hexadecimal digits, with a space in front of each -/
inductive HexCells : Bytes → Bytes → Prop
  | nil : HexCells [] []
  | cons {b : Byte} {bs t u : Bytes} : HexText t b.toNat → t.length = 2 → HexCells bs u → HexCells (b :: bs) (32 :: t ++ u)

/-- Printable characters are shown, others as a full stop. -/
def Shown (b c : Byte) : Prop := (0x20 ≤ b.toNat ∧ b.toNat ≤ 0x7e ∧ c = b) ∨ (¬ (0x20 ≤ b.toNat ∧ b.toNat ≤ 0x7e) ∧ c = 46)

/-- A line of a dump: the offset in four digits, the bytes, and spaces instead of missing bytes; and the characters -/
def DumpLine (offset : Nat) (chunk : Bytes) (line : Bytes × Bytes) : Prop :=
  ∃ o cells, HexText o offset ∧ o.length = 4 ∧ HexCells chunk cells ∧
    line.1 = o ++ [32] ++ cells ++ List.replicate (3 * (16 - chunk.length)) 32 ∧
    line.2.length = chunk.length ∧ ∀ (k : Nat) (b c : Byte), chunk[k]? = some b → line.2[k]? = some c → Shown b c

end Loc.Spec
