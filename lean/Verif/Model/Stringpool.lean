import Verif.Model.Format
/-
Model of `src/stringpool.c`.
-/
namespace Loc

/-- `struct loc_stringpool`, stringpool.c:32-43, of a pool that is being built.  `data` are the first
    `length` bytes of `blocks`; `size` is the allocated size of `blocks`. -/
structure Pool where
  data : Bytes
  size : Nat
  deriving DecidableEq, Repr

/-- `loc_stringpool_new`, stringpool.c:104-116 -/
def poolNew : Pool := ⟨[], 0⟩

/-- `LOC_STRINGPOOL_BLOCK_SIZE`, stringpool.c:30 -/
def poolBlock : Nat := 512 * 1024

/-- The C string that starts at offset `off` of a buffer: the bytes up to the first NUL.  Running
    over the end of the buffer is a fault. -/
def cstrAt (f : Bytes) (off : Nat) : Res CStr :=
  let rest := f.drop off
  let s := rest.takeWhile (· != 0)
  if s.length < rest.length then .ok s else .error .eof

/-- `loc_stringpool_append`, stringpool.c:64-91, for a string other than `NULL`.  The pool grows by
    one block at most (`loc_stringpool_grow`, stringpool.c:45-62, memory is assumed to be
    available); copying more than fits is a fault. -/
def poolAppend (p : Pool) (s : CStr) : Res (Nat × Pool) :=
  let length := s.length + 1
  let size := if p.data.length + length > p.size then p.size + poolBlock else p.size
  if p.data.length + length > size then .error .oob
  else .ok (p.data.length, ⟨p.data ++ s ++ [0], size⟩)

/-- `loc_stringpool_get`, stringpool.c:157-166: `none` is `NULL` (offset out of range).  The pointer
    it returns is represented by the string it points to. -/
def poolGet (p : Pool) (off : Nat) : Res (Option CStr) :=
  if off ≥ p.data.length then .ok none
  else match cstrAt p.data off with
    | .error e => .error e
    | .ok s => .ok (some s)

/-- The loop of `loc_stringpool_find`, stringpool.c:178-192; `none`: nothing found. -/
def poolFindLoop (p : Pool) (s : CStr) (off : Nat) : Nat → Res (Option Nat)
  | 0 => .error .diverge
  | fuel + 1 =>
    if off < p.data.length then
      match poolGet p off with
      | .error e => .error e
      | .ok none => .ok (some 1)           -- `return 1` (not reached)
      | .ok (some t) =>
        if s = t then .ok (some off)
        else poolFindLoop p s (off + t.length + 1) fuel
    else .ok none

/-- `loc_stringpool_find`, stringpool.c:172-197 -/
def poolFind (p : Pool) (s : CStr) : Res (Option Nat) :=
  if s = [] then .ok none else poolFindLoop p s 0 (p.data.length + 1)

/-- `loc_stringpool_add`, stringpool.c:199-207, for a string other than `NULL` -/
def poolAdd (p : Pool) (s : CStr) : Res (Nat × Pool) :=
  match poolFind p s with
  | .error e => .error e
  | .ok (some off) => .ok (off, p)
  | .ok none => poolAppend p s

end Loc
