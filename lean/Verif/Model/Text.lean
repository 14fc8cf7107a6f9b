import Verif.Model.Network
/-
Model of the text functions: `src/address.c` (formatting and parsing of addresses),
`loc_network_new_from_string`, `loc_network_str` and `loc_network_reverse_pointer` of
`src/network.c`.

The C library functions they call (`inet_ntop`, `inet_pton`, `strtol`, `snprintf` with `%s`, `%u`,
`%d`, `%x`) are modelled after glibc (resolv/inet_ntop.c, resolv/inet_pton.c) and the C standard;
they are not part of /repo.
-/
namespace Loc

/-! ## Numbers in text -/

/-- The digit for `d < 16`: '0'-'9', 'a'-'f' -/
def digitChar (d : Nat) : Byte := if d < 10 then BitVec.ofNat 8 (48 + d) else BitVec.ofNat 8 (87 + d)

/-- Digits of `n` to the base, most significant first, no leading zero (`fuel` bounds their number). -/
def numLoop (base : Nat) : (fuel n : Nat) → CStr
  | 0, _ => []
  | fuel + 1, n => if n < base then [digitChar n] else numLoop base fuel (n / base) ++ [digitChar (n % base)]

/-- `%u` (and `%d` of a non-negative number) of an at most 32-bit number: at most ten digits -/
def decStr (n : Nat) : CStr := numLoop 10 10 n

/-- `%x` of an at most 32-bit number: at most eight digits -/
def hexStr (n : Nat) : CStr := numLoop 16 8 n

/-! ## inet_ntop -/

/-- glibc `inet_ntop4`: `sprintf(tmp, "%u.%u.%u.%u", ...)` -/
def ntop4 (a b c d : Byte) : CStr :=
  decStr a.toNat ++ 46 :: decStr b.toNat ++ 46 :: decStr c.toNat ++ 46 :: decStr d.toNat

/-- The eight 16-bit words of an address (glibc `inet_ntop6`, first loop) -/
def word (a : Addr) (i : Nat) : Nat := (oct a (2 * i)).toNat * 256 + (oct a (2 * i + 1)).toNat

/-- Keep the longer run, the first one if equal (glibc: `best.base == -1 || cur.len > best.len`). -/
def betterRun (best cur : Option (Nat × Nat)) : Option (Nat × Nat) :=
  match cur, best with
  | none, _ => best
  | some c, none => some c
  | some c, some b => if c.2 > b.2 then some c else some b

/-- The current run, extended by the zero word `i` -/
def extendRun (cur : Option (Nat × Nat)) (i : Nat) : Option (Nat × Nat) :=
  match cur with
  | none => some (i, 1)
  | some (b, l) => some (b, l + 1)

/-- glibc `inet_ntop6`: search the longest run of zero words from word `i` on; `best` and `cur` are
    pairs of base and length. -/
def runLoop (a : Addr) (best cur : Option (Nat × Nat)) (i : Nat) : (fuel : Nat) → Option (Nat × Nat)
  | 0 => betterRun best cur
  | fuel + 1 =>
    if word a i == 0 then runLoop a best (extendRun cur i) (i + 1) fuel
    else runLoop a (betterRun best cur) none (i + 1) fuel

/-- The run of zero words to be abbreviated: only runs of at least two words are. -/
def zeroRun (a : Addr) : Option (Nat × Nat) :=
  match runLoop a none none 0 8 with
  | some (b, l) => if l < 2 then none else some (b, l)
  | none => none

/-- glibc `inet_ntop6`: "Is this address an encapsulated IPv4?", evaluated at word 6 -/
def tail4 (a : Addr) (best : Option (Nat × Nat)) : Bool :=
  match best with
  | some (0, l) => l == 6 || (l == 5 && word a 5 == 0xffff)
  | _ => false

/-- Is word `i` inside of the abbreviated run, and is it the first one? -/
def inRun (best : Option (Nat × Nat)) (i : Nat) : Option Bool :=
  match best with
  | some (b, l) => if b ≤ i ∧ i < b + l then some (i == b) else none
  | none => none

/-- glibc `inet_ntop6`: "Was it a trailing run of 0x00's?" -/
def trailing (best : Option (Nat × Nat)) : CStr :=
  match best with
  | some (b, l) => if b + l == 8 then [58] else []
  | none => []

/-- glibc `inet_ntop6`: the output loop from word `i` on -/
def ntop6Loop (a : Addr) (best : Option (Nat × Nat)) (i : Nat) : (fuel : Nat) → CStr
  | 0 => trailing best
  | fuel + 1 =>
    match inRun best i with
    | some true => 58 :: ntop6Loop a best (i + 1) fuel
    | some false => ntop6Loop a best (i + 1) fuel
    | none =>
      let sep : CStr := if i == 0 then [] else [58]
      if i == 6 && tail4 a best then sep ++ ntop4 (oct a 12) (oct a 13) (oct a 14) (oct a 15)
      else sep ++ hexStr (word a i) ++ ntop6Loop a best (i + 1) fuel

/-- glibc `inet_ntop6`, without the check of the buffer size -/
def ntop6 (a : Addr) : CStr := ntop6Loop a (zeroRun a) 0 8

/-- `inet_ntop`: fails (`ENOSPC`, `NULL`) if the text and its NUL do not fit into `size` bytes -/
def fitted (size : Nat) (s : CStr) : Option CStr := if s.length + 1 > size then none else some s

/-! ## inet_pton -/

/-- A decimal digit -/
def decVal (c : Byte) : Option Nat := if 48 ≤ c.toNat ∧ c.toNat ≤ 57 then some (c.toNat - 48) else none

/-- glibc `hex_digit_value` -/
def hexVal (c : Byte) : Option Nat :=
  if 48 ≤ c.toNat ∧ c.toNat ≤ 57 then some (c.toNat - 48)
  else if 97 ≤ c.toNat ∧ c.toNat ≤ 102 then some (c.toNat - 87)
  else if 65 ≤ c.toNat ∧ c.toNat ≤ 70 then some (c.toNat - 55)
  else none

/-- glibc `inet_pton4`: `out` are the finished octets, `cur` is `*tp` -/
def pton4Loop : CStr → (out : List Byte) → (cur : Nat) → (saw : Bool) → (octets : Nat) → Option (List Byte)
  | [], out, cur, _, octets => if octets < 4 then none else some (out ++ [BitVec.ofNat 8 cur])
  | c :: s, out, cur, saw, octets =>
    match decVal c with
    | some d =>
      if saw && cur == 0 then none
      else if cur * 10 + d > 255 then none
      else if saw then pton4Loop s out (cur * 10 + d) true octets
      else if octets + 1 > 4 then none
      else pton4Loop s out (cur * 10 + d) true (octets + 1)
    | none =>
      if c == 46 && saw then
        if octets == 4 then none else pton4Loop s (out ++ [BitVec.ofNat 8 cur]) 0 false octets
      else none

def pton4 (s : CStr) : Option (List Byte) := pton4Loop s [] 0 false 0

/-- State of glibc `inet_pton6`: the bytes written so far (`tmp` up to `tp`), `colonp` as an index
    into them, `xdigits_seen` and `val`. -/
structure Pton6 where
  out : List Byte
  colon : Option Nat
  digits : Nat
  val : Nat
  deriving DecidableEq, Repr

/-- Append `val` in network byte order. -/
def Pton6.push (st : Pton6) : Pton6 :=
  { st with out := st.out ++ [BitVec.ofNat 8 (st.val / 256), BitVec.ofNat 8 (st.val % 256)], digits := 0, val := 0 }

/-- glibc `inet_pton6`: the loop; `tok` is `curtok` -/
def pton6Loop : CStr → (tok : CStr) → Pton6 → Option Pton6
  | [], _, st => some st
  | c :: s, tok, st =>
    match hexVal c with
    | some d => if st.digits == 4 then none else pton6Loop s tok { st with val := st.val * 16 + d, digits := st.digits + 1 }
    | none =>
      if c == 58 then
        if st.digits == 0 then
          if st.colon.isSome then none else pton6Loop s s { st with colon := some st.out.length }
        else if s.isEmpty then none
        else if st.out.length + 2 > 16 then none
        else pton6Loop s s st.push
      else if c == 46 && decide (st.out.length + 4 ≤ 16) then
        match pton4 tok with
        | some l => some { st with out := st.out ++ l, digits := 0 }
        | none => none
      else none

/-- glibc `inet_pton6`: after the loop -/
def pton6Finish (st : Pton6) : Option (List Byte) :=
  if st.digits > 0 ∧ st.out.length + 2 > 16 then none
  else
    let out := if st.digits > 0 then st.push.out else st.out
    match st.colon with
    | some k =>
      if out.length == 16 then none
      else some (out.take k ++ List.replicate (16 - out.length) 0 ++ out.drop k)
    | none => if out.length == 16 then some out else none

/-- glibc `inet_pton6` -/
def pton6 (s : CStr) : Option (List Byte) :=
  match s with
  | [] => none
  | c :: t =>
    if c == 58 then
      match t with
      | [] => none
      | d :: _ => if d == 58 then (pton6Loop t t ⟨[], none, 0, 0⟩).bind pton6Finish else none
    else (pton6Loop s s ⟨[], none, 0, 0⟩).bind pton6Finish

/-- The 16 bytes that `inet_pton6` stores. -/
def toAddr (l : List Byte) : Option Addr := if h : l.length = 16 then some ⟨l.toArray, by simpa using h⟩ else none

/-! ## strtol -/

/-- `isspace` in the C locale -/
def isSpace (c : Byte) : Bool := c == 32 || (decide (9 ≤ c.toNat) && decide (c.toNat ≤ 13))

/-- The value of the leading decimal digits. -/
def digitsVal (acc : Nat) : CStr → Nat
  | [] => acc
  | c :: s => match decVal c with
    | some d => digitsVal (acc * 10 + d) s
    | none => acc

/-- `strtol(s, NULL, 10)` with a 64-bit `long`: leading white space, optional sign, as many digits
    as there are; 0 without digits; saturates. -/
def strtol (s : CStr) : Int :=
  match s.dropWhile isSpace with
  | [] => 0
  | c :: t =>
    if c == 45 then max (-(digitsVal 0 t : Int)) (-(2 ^ 63))
    else min (digitsVal 0 (if c == 43 then t else c :: t) : Int) (2 ^ 63 - 1)

/-- Conversion to `unsigned int` -/
def toUInt (v : Int) : Nat := (v % 2 ^ 32).toNat

/-! ## address.c -/

/-- `INET6_ADDRSTRLEN` -/
def INET6_ADDRSTRLEN : Nat := 46

/-- The static buffers of address.c:28-32: `__loc_address_buffers` and `__loc_address_buffer_idx`.
    The content of a buffer is the C string in it. -/
structure FmtState where
  bufs : Vector CStr 6
  idx : Nat
  deriving Repr

/-- The state when the library is loaded: static storage is zero. -/
def fmtInit : FmtState := ⟨Vector.replicate 6 [], 0⟩

/-- The text of an address, as `loc_address_str` selects it (address.c:34-43, 55-58) -/
def addrText (a : Addr) : CStr :=
  if isV4Mapped a then ntop4 (oct a 12) (oct a 13) (oct a 14) (oct a 15) else ntop6 a

/-- `loc_address_str`, address.c:45-59.  Returns the number of the buffer whose address the C
    function returns (`none` for `NULL`).  An index outside of the six buffers is reported. -/
def addressStr (st : FmtState) (a : Option Addr) : Res (FmtState × Option Nat) :=
  match a with
  | none => .ok (st, none)
  | some a =>
    if h : st.idx < 6 then
      match fitted INET6_ADDRSTRLEN (addrText a) with
      | some s => .ok (⟨st.bufs.set st.idx s, (st.idx + 1) % 6⟩, some st.idx)
      | none => .ok (⟨st.bufs, (st.idx + 1) % 6⟩, none)
    else .error .oob

/-- A sequence of calls of `loc_address_str`. -/
def fmtRun (st : FmtState) : List (Option Addr) → Res FmtState
  | [] => .ok st
  | a :: as => do
    let (st', _) ← addressStr st a
    fmtRun st' as

/-- `loc_address_parse`, address.c:90-137: the address and the family in whose text form it was
    written; IPv6 is tried first. -/
def parseText (text : CStr) : Option (Addr × Family) :=
  match (pton6 text).bind toAddr with
  | some a => some (a, .inet6)
  | none =>
    match (pton4 text).bind (fun l => toAddr ([0,0,0,0, 0,0,0,0, 0,0,0xff,0xff] ++ l)) with
    | some a => some (a, .inet)
    | none => none

/-- `loc_address_parse`, address.c:69-161: the address and the prefix.  `wantPrefix` is whether the
    caller passed a pointer for the prefix.  The string is copied into a buffer with
    `snprintf(buffer, 49, "%s", string)`, which keeps 48 characters. -/
def addressParse (wantPrefix : Bool) (string : Option CStr) : Res (Addr × Option Nat) :=
  match string with
  | none => .error (.err EINVAL)
  | some string =>
    let buffer := string.take 48
    let text := buffer.takeWhile (· != 47)
    let p := (buffer.dropWhile (· != 47)).tail?
    match parseText text with
    | none => .error (.err EINVAL)
    | some (a, family) =>
      if !wantPrefix then .ok (a, none)
      else
        match p with
        | none => .ok (a, some (familyBitLength family))
        | some p =>
          if toUInt (strtol p) > familyBitLength family then .error (.err EINVAL)
          else .ok (a, some (toUInt (strtol p)))

/-! ## network.c -/

/-- `loc_network_new_from_string`, network.c:92-106 -/
def newFromString (string : Option CStr) : Res Network := do
  let (a, p) ← addressParse true string
  match p with
  | some p => newNetwork a p
  | none => .error (.err EINVAL)

/-- `loc_network_str`, network.c:129-149: `cache` is the content of `network->string` (50 bytes,
    network.c:46).  `snprintf(string, 49, ...)` keeps 48 characters. -/
def networkStr (st : FmtState) (n : Network) (cache : CStr) : Res (FmtState × Option CStr × CStr) :=
  if cache.isEmpty then do
    let (st', b) ← addressStr st (some n.first)
    match b with
    | none => .ok (st', none, cache)
    | some b =>
      if h : b < 6 then
        let s := (st'.bufs[b] ++ 47 :: decStr (netPrefix n)).take 48
        .ok (st', some s, s)
      else .error .oob
  else .ok (st, some cache, cache)

/-- "ip6.arpa." -/
def ip6Arpa : CStr := [105, 112, 54, 46, 97, 114, 112, 97, 46]

/-- "in-addr.arpa." -/
def inAddrArpa : CStr := [105, 110, 45, 97, 100, 100, 114, 46, 97, 114, 112, 97, 46]

/-- `loc_network_reverse_pointer6`, network.c:724-728: the loop with counter `i`; prints the nibble
    in front of the buffer.  The previous buffer is leaked; memory use is not modelled. -/
def nibbleLoop (first : Addr) (buffer : CStr) (i : Nat) : (fuel : Nat) → Res CStr
  | 0 => .ok buffer
  | fuel + 1 => do
    let d ← getNibble first i
    nibbleLoop first (hexStr d.toNat ++ 46 :: buffer) (i + 1) fuel

/-- `loc_network_reverse_pointer6`, network.c:704-744 -/
def reversePointer6 (n : Network) (suffix : Option CStr) : Res CStr :=
  let pfx := netPrefix n
  if pfx % 4 ≠ 0 then .error (.err ENOTSUP)
  else do
    let buffer ← nibbleLoop n.first (suffix.getD ip6Arpa) 0 (pfx / 4)
    if pfx < 128 then .ok (42 :: 46 :: buffer) else .ok buffer

/-- `loc_network_reverse_pointer4`, network.c:746-805.  The `default` branch (unreachable, returns
    `NULL` without setting `errno`) is reported as error 0. -/
def reversePointer4 (n : Network) (suffix : Option CStr) : Res CStr :=
  let pfx := netPrefix n
  let suffix := suffix.getD inAddrArpa
  if pfx % 8 ≠ 0 then .error (.err ENOTSUP)
  else if pfx = 32 then do
    let o3 ← getOctet n.first 3
    let o2 ← getOctet n.first 2
    let o1 ← getOctet n.first 1
    let o0 ← getOctet n.first 0
    .ok (decStr o3.toNat ++ 46 :: decStr o2.toNat ++ 46 :: decStr o1.toNat ++ 46 :: decStr o0.toNat ++ 46 :: suffix)
  else if pfx = 24 then do
    let o2 ← getOctet n.first 2
    let o1 ← getOctet n.first 1
    let o0 ← getOctet n.first 0
    .ok (42 :: 46 :: decStr o2.toNat ++ 46 :: decStr o1.toNat ++ 46 :: decStr o0.toNat ++ 46 :: suffix)
  else if pfx = 16 then do
    let o1 ← getOctet n.first 1
    let o0 ← getOctet n.first 0
    .ok (42 :: 46 :: decStr o1.toNat ++ 46 :: decStr o0.toNat ++ 46 :: suffix)
  else if pfx = 8 then do
    let o0 ← getOctet n.first 0
    .ok (42 :: 46 :: decStr o0.toNat ++ 46 :: suffix)
  else if pfx = 0 then .ok (42 :: 46 :: suffix)
  else .error (.err 0)

/-- `loc_network_reverse_pointer`, network.c:807-820 -/
def reversePointer (n : Network) (suffix : Option CStr) : Res CStr :=
  match n.family with
  | .inet6 => reversePointer6 n suffix
  | .inet => reversePointer4 n suffix

end Loc
