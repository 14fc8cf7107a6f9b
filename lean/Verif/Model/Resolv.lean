import Verif.Model.Format
/-
Model of `src/resolv.c`.  `res_init`/`res_query` deliver the reply, `dn_expand` and
`strptime`/`timegm` are parameters; `Model/Dates` models the latter.
-/
namespace Loc

/-- `PACKETSZ`, <arpa/nameser_compat.h> -/
def PACKETSZ : Nat := 512

/-- `T_CNAME`, `T_TXT` -/
def T_CNAME : Nat := 5
def T_TXT : Nat := 16

/-- Reading byte `i` of the buffer `answer`. -/
def ansByte (ans : Bytes) (i : Nat) : Res Nat :=
  match ans[i]? with
  | some b => .ok b.toNat
  | none => .error .oob

/-- `GETSHORT`, <arpa/nameser_compat.h>: the value; the pointer moves on by 2. -/
def getShort (ans : Bytes) (p : Nat) : Res Nat := do
  let a ← ansByte ans p
  let b ← ansByte ans (p + 1)
  return a * 256 + b

/-- `GETLONG`: the value; the pointer moves on by 4. -/
def getLong (ans : Bytes) (p : Nat) : Res Nat := do
  let a ← getShort ans p
  let b ← getShort ans (p + 2)
  return a * 65536 + b

/-- `dn_expand(answer, end, payload, host, sizeof(host))`: the number of bytes the (possibly
    compressed) name occupies at `payload`, or failure.  The content of `host` is not used. -/
abbrev DnExpand := Bytes → Nat → Nat → Option Nat

/-- The loop of `loc_discover_latest_version`, resolv.c:101-128: type and size of the first record
    that is no `CNAME`, and the position of its data.  `size` is the one of the previous record
    (`payload += size`, line 102, is done by the caller of the next round).  `fuel` bounds the rounds. -/
def recordLoop (dn : DnExpand) (ans : Bytes) (stop : Nat) : Nat → Nat → Res (Nat × Nat × Nat)
  | 0, _ => .error .diverge
  | fuel + 1, payload =>
    match dn ans stop payload with
    | none => .error (.err EPERM)
    | some len =>
      let payload := payload + len
      if payload + 10 > stop then .error (.err EPERM)
      else do
        let type ← getShort ans payload
        let _ ← getLong ans (payload + 4)
        let size ← getShort ans (payload + 8)
        let payload := payload + 10
        if payload + size > stop then .error (.err EPERM)
        else if type = T_CNAME then recordLoop dn ans stop fuel (payload + size)
        else return (type, size, payload)

/-- The bytes up to the first NUL; running off the end of the buffer is a fault. -/
def bufStr : Bytes → Res CStr
  | [] => .error .oob
  | c :: l => if c = 0 then .ok [] else do return c :: (← bufStr l)

/-- `loc_discover_latest_version`, resolv.c:46-148.  `ans` is the 512 byte array `answer` after
    `res_query`, `reply` its return value, `timestamp` is `parse_timestamp` (resolv.c:27-44;
    `none`: the string does not have the expected form).  The return value -1 is
    `Fault.err EPERM`. -/
def discover {T : Type} (dn : DnExpand) (timestamp : CStr → Option T) (ans : Bytes) (reply : Int) : Res T :=
  if reply < 0 ∨ reply > PACKETSZ then .error (.err EPERM)
  else
    let stop := reply.toNat
    match dn ans stop 12 with
    | none => .error (.err EPERM)
    | some len =>
      let payload := 12 + len
      if payload + 4 > stop then .error (.err EPERM)
      else do
        let type ← getShort ans payload
        if type ≠ T_TXT then throw (.err EPERM)
        else
          let (type, size, payload) ← recordLoop dn ans stop (PACKETSZ + 1) (payload + 4)
          if type ≠ T_TXT then throw (.err EPERM)
          else if size = 0 then throw (.err EPERM)
          else
            let len ← ansByte ans payload
            if len ≥ size ∨ len = 0 then throw (.err EPERM)
            else if payload + 1 + len ≥ ans.length then throw .oob
            else
              let txt ← bufStr ((ans.set (payload + 1 + len) 0).drop (payload + 1))
              match timestamp txt with
              | some t => return t
              | none => throw (.err EPERM)

end Loc
