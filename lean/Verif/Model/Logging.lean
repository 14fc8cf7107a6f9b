import Verif.Model.Format
/-
Model of logging: `src/libloc.c` (`log_priority`, `loc_new`, `loc_log`, the setters) and `src/libloc/private.h` (the macros `DEBUG`,
`INFO`, `ERROR`, and `hexdump`).
-/
namespace Loc

/-! ## Priorities -/

/-- `isspace` in the locale "C".  Simplified: bytes above 127, for which the argument of `isspace` is negative, are no space. -/
def cSpace (c : Byte) : Bool := decide (9 ≤ c.toNat ∧ c.toNat ≤ 13) || decide (c = 32)

/-- `isdigit` -/
def cDigit (c : Byte) : Bool := decide (48 ≤ c.toNat ∧ c.toNat ≤ 57)

/-- The number the digits stand for -/
def decimal (ds : Bytes) : Nat := ds.foldl (fun n c => 10 * n + (c.toNat - 48)) 0

/-- `strtol(s, &endptr, 10)` with 64 bits: the value, and the rest of the string -/
def strtol10 (s : Bytes) : Int × Bytes :=
  let t := s.dropWhile cSpace
  let neg := t.head? == some 45
  let u := if neg || t.head? == some 43 then t.drop 1 else t
  let ds := u.takeWhile cDigit
  if ds.isEmpty then (0, s)
  else
    let v : Int := if neg then -(decimal ds : Int) else decimal ds
    (max (-2 ^ 63) (min (2 ^ 63 - 1) v), u.dropWhile cDigit)

/-- Conversion to `int` -/
def toInt32 (v : Int) : Int := (BitVec.ofInt 32 v).toInt

/-- `log_priority`, libloc.c:61-79 -/
def logPriority (s : Bytes) : Int :=
  let (v, rest) := strtol10 s
  if rest.isEmpty || (rest.head?.map cSpace) == some true then toInt32 v
  else if ([101, 114, 114] : Bytes).isPrefixOf s then 3
  else if ([105, 110, 102, 111] : Bytes).isPrefixOf s then 6
  else if ([100, 101, 98, 117, 103] : Bytes).isPrefixOf s then 7
  else 0

/-- `struct loc_ctx_logging`, libloc.c:34-42: the priority, and the callback with its data (0, 0 stands for `log_stderr`) -/
structure LogCtx where
  priority : Int
  callback : Nat × Nat
  deriving DecidableEq, Repr

/-- What a callback gets: the callback, its data, and the priority of the message -/
abbrev Delivery := (Nat × Nat) × Int

/-- `loc_log_cond`, `DEBUG`, `INFO` and `ERROR`, private.h:30-43; `debug`: compiled with `ENABLE_DEBUG` -/
def logMessage (debug : Bool) (c : LogCtx) (prio : Int) : List Delivery :=
  if prio = 7 ∧ debug = false then [] else if c.priority ≥ prio then [(c.callback, prio)] else []

/-- `loc_new`, libloc.c:81-101; `env` is the value of `LOC_LOG`. -/
def logNew (debug : Bool) (env : Option Bytes) : LogCtx × List Delivery :=
  let c : LogCtx := ⟨3, (0, 0)⟩
  let c := match env with
    | none => c
    | some s => { c with priority := logPriority s }
  (c, logMessage debug c 6 ++ logMessage debug c 7)

/-- Calls: `loc_set_log_priority`, `loc_set_log_callback`, `loc_set_log_fn`, and any that lead to a message. -/
inductive LogOp
  | priority (p : Int)
  | callback (c : Nat × Nat)
  | fn
  | message (prio : Int)
  deriving DecidableEq, Repr

/-- libloc.c:121-138 -/
def logStep (debug : Bool) (c : LogCtx) : LogOp → LogCtx × List Delivery
  | .priority p => ({ c with priority := p }, [])
  | .callback f => ({ c with callback := f }, [])
  | .fn => (c, logMessage debug c 6)
  | .message prio => (c, logMessage debug c prio)

/-- The messages of each of the calls -/
def logRun (debug : Bool) : LogCtx → List LogOp → List (List Delivery)
  | _, [] => []
  | c, op :: ops => (logStep debug c op).2 :: logRun debug (logStep debug c op).1 ops

/-! ## Dumps -/

/-- Writing into an array -/
def poke (buf : Bytes) (i : Nat) (b : Bytes) : Res Bytes :=
  if i + b.length ≤ buf.length then .ok (buf.take i ++ b ++ buf.drop (i + b.length)) else .error .oob

/-- Reading the string at the beginning of an array -/
def stringIn (buf : Bytes) : Res Bytes := if buf.contains 0 then .ok (buf.takeWhile (· ≠ 0)) else .error .oob

/-- A hexadecimal digit -/
def hexChar (n : Nat) : Byte := BitVec.ofNat 8 (if n < 10 then 48 + n else 87 + n)

/-- `%x`; `fuel` is at least the number of digits. -/
def hexDigits : Nat → Nat → Bytes
  | 0, _ => []
  | fuel + 1, n => if n < 16 then [hexChar n] else hexDigits fuel (n / 16) ++ [hexChar (n % 16)]

/-- `%04x` of an `unsigned int` -/
def hex04 (n : Nat) : Bytes := List.replicate (4 - (hexDigits 8 n).length) 48 ++ hexDigits 8 n

/-- `%02x` of a byte -/
def hex02 (b : Byte) : Bytes := [hexChar (b.toNat / 16), hexChar (b.toNat % 16)]

/-- The arrays of `hexdump`, and the lines that were printed: the two strings of each -/
structure HexState where
  hex : Bytes
  ascii : Bytes
  lines : List (Bytes × Bytes)

/-- `DEBUG(ctx, "  %s %s\n", buffer_hex, buffer_ascii)` -/
def hexPrint (s : HexState) : Res HexState :=
  match stringIn s.hex with
  | .error e => .error e
  | .ok h =>
    match stringIn s.ascii with
    | .error e => .error e
    | .ok a => .ok { s with lines := s.lines ++ [(h, a)] }

/-- private.h:74-82: the start of a line -/
def hexStart (s : HexState) (i : Nat) : Res HexState :=
  if i % 16 = 0 then
    match (if i ≠ 0 then hexPrint s else .ok s) with
    | .error e => .error e
    | .ok s =>
      match poke s.hex 0 (hex04 i ++ [32, 0]) with
      | .error e => .error e
      | .ok h => .ok { s with hex := h }
  else .ok s

/-- One round of the loop, private.h:73-95 -/
def hexStep (s : HexState) (i : Nat) (b : Byte) : Res HexState :=
  match hexStart s i with
  | .error e => .error e
  | .ok s =>
  match poke s.hex (5 + i % 16 * 3) (32 :: hex02 b ++ [0]) with
  | .error e => .error e
  | .ok h =>
  match poke s.ascii (i % 16) [if b.toNat < 0x20 ∨ b.toNat > 0x7e then 46 else b] with
  | .error e => .error e
  | .ok a =>
  match poke a (i % 16 + 1) [0] with
  | .error e => .error e
  | .ok a => .ok { s with hex := h, ascii := a }

/-- The loop, private.h:73-95 -/
def hexLoop : HexState → Nat → Bytes → Res HexState
  | s, _, [] => .ok s
  | s, i, b :: bs =>
    match hexStep s i b with
    | .error e => .error e
    | .ok s => hexLoop s (i + 1) bs

/-- private.h:98-101; `k` is at least the number of rounds. -/
def hexPad : Nat → HexState → Nat → Res HexState
  | 0, s, i => if i % 16 ≠ 0 then .error .diverge else .ok s
  | k + 1, s, i =>
    if i % 16 ≠ 0 then
      match poke s.hex (5 + i % 16 * 3) [32, 32, 32, 0] with
      | .error e => .error e
      | .ok h => hexPad k { s with hex := h } (i + 1)
    else .ok s

/-- `hexdump`, private.h:60-105: the lines that are printed.  `hex` and `ascii` are the contents of the arrays, which are not
    initialised.  The counter has 32 bits. -/
def hexdump (hex ascii : Bytes) (data : Bytes) : Res (List (Bytes × Bytes)) :=
  if data.isEmpty then .ok []
  else if 2 ^ 32 ≤ data.length then .error .diverge
  else
    match hexLoop ⟨hex, ascii, []⟩ 0 data with
    | .error e => .error e
    | .ok s =>
      match hexPad 15 s data.length with
      | .error e => .error e
      | .ok s =>
        match hexPrint s with
        | .error e => .error e
        | .ok s => .ok s.lines

end Loc
