/-
Basic types shared by the whole model: octets, addresses, outcomes of C functions.
-/
namespace Loc

/-- `uint8_t` / `char`. -/
abbrev Byte := BitVec 8

/-- What can go wrong in a C function.  `err e` is a reported failure with error number `e`
    (the C code returns `-e`, or a non-zero value with `errno = e`); the other constructors are
    undefined behaviour of the C program and are never hidden behind a default value. -/
inductive Fault
  /-- reported error, `errno` style -/
  | err (e : Nat)
  /-- read or write outside of an object -/
  | oob
  /-- read outside of the mapped file (or of the string pool) -/
  | eof
  /-- the C code recurses/loops for ever (or overflows the machine stack) -/
  | diverge
  deriving DecidableEq, Repr

abbrev Res := Except Fault

/-- A call whose error return is ignored and which leaves the object `d` unchanged on failure. -/
def ignoreErr {α : Type} (r : Res α) (d : α) : α :=
  match r with
  | .ok x => x
  | .error _ => d

/-- `<errno.h>` (Linux) -/
def EPERM : Nat := 1
def ENOENT : Nat := 2
def EBUSY : Nat := 16
def EINVAL : Nat := 22
def ERANGE : Nat := 34
def ENOTSUP : Nat := 95
def EFAULT : Nat := 14
def ENOMSG : Nat := 42
def EBADMSG : Nat := 74

/-- `struct in6_addr`: 16 octets in network byte order (`s6_addr`). -/
abbrev Addr := Vector Byte 16

/-- `s6_addr[i]`.  Every caller in the model uses it with `i < 16` only (loops over 0..15); places
    where the C code may index outside the 16 octets test for that before and report
    `Fault.oob`. -/
def oct (a : Addr) (i : Nat) : Byte := if h : i < 16 then a[i] else 0

/-- `s6_addr[i] = v` (only used with `i < 16`, see `oct`). -/
def setOct (a : Addr) (i : Nat) (v : Byte) : Addr := if h : i < 16 then a.set i v else a

/-- Address families (`AF_INET`, `AF_INET6`); no other value is ever stored in a network. -/
inductive Family
  | inet | inet6
  deriving DecidableEq, Repr

/-- C strings: the bytes before the terminating NUL.  A `const char*` that may be `NULL` is an
    `Option CStr`. -/
abbrev CStr := List Byte

end Loc
