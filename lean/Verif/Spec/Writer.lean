import Verif.Model.Writer
import Verif.Spec.Tree
/-
Histories of calls on a writer, and what they mean: the metadata, the ASes and the countries a
caller has asked for.
-/
namespace Loc.Spec
open Loc

/-- A call on a writer (or on an object the caller got from it). -/
inductive WOp (K : Type)
  | vendor (s : Option CStr)
  | description (s : Option CStr)
  | license (s : Option CStr)
  /-- `loc_writer_add_as` and `loc_as_set_name` on the returned object -/
  | addAs (number : BitVec 32) (name : Option CStr)
  /-- `loc_as_set_name` on the object that was added first -/
  | renameAs (number : BitVec 32) (name : Option CStr)
  /-- `loc_writer_add_country`, `loc_country_set_continent_code` and `loc_country_set_name` -/
  | addCountry (code continent name : Option CStr)
  /-- `loc_writer_add_network` -/
  | addNetwork (n : Network)
  /-- setters called on an added network -/
  | changeNetwork (n n' : Network)
  /-- `loc_writer_write` to some other file -/
  | write (e : WEnv K) (old : Bytes) (version : Nat)

/-- What a call does to the writer; calls that return an error leave it unchanged, undefined
    behaviour is passed on. -/
def wstep {K : Type} (w : Writer K) : WOp K → Res (Writer K)
  | .vendor s => match setVendor w s with
    | .error (.err _) => .ok w
    | r => r
  | .description s => match setDescription w s with
    | .error (.err _) => .ok w
    | r => r
  | .license s => match setLicense w s with
    | .error (.err _) => .ok w
    | r => r
  | .addAs number name => .ok (addAs w number name)
  | .renameAs number name => .ok (renameAs w number name)
  | .addCountry code continent name => match addCountry w code continent name with
    | .error (.err _) => .ok w
    | r => r
  | .addNetwork n => match addNetwork w n with
    | .error e => .error e
    | .ok (_, w) => .ok w
  | .changeNetwork n n' => .ok { w with networks := w.networks.replace n n' }
  | .write e old version => match writerWrite e w old version with
    | .error e => .error e
    | .ok (w, _) => .ok w

/-- A history of calls. -/
def wrun {K : Type} (w : Writer K) : List (WOp K) → Res (Writer K)
  | [] => .ok w
  | op :: ops => match wstep w op with
    | .error e => .error e
    | .ok w => wrun w ops

/-- No NUL byte, as in every C string. -/
def StrOk (s : Option CStr) : Prop := ∀ x, s = some x → (0 : Byte) ∉ x

/-- The calls a caller can make: strings are C strings, networks are made by the library, setters
    keep the block of a network.  `ctz0` is the value of `__builtin_ctz(0)`. -/
def OpOk {K : Type} (ctz0 : Nat) : WOp K → Prop
  | .vendor s => StrOk s
  | .description s => StrOk s
  | .license s => StrOk s
  | .addAs _ name => StrOk name
  | .renameAs _ name => StrOk name
  | .addCountry code continent name => StrOk code ∧ StrOk continent ∧ StrOk name
  | .addNetwork n => Built ctz0 n
  | .changeNetwork n n' => Built ctz0 n' ∧ SameBlock n' n
  | .write e _ _ => e.ctz0 = ctz0

/-- A string that fits into one block of the string pool, 512 KiB with the terminating NUL. -/
def ShortStr (s : Option CStr) : Prop := ∀ x, s = some x → x.length < 512 * 1024

/-- All strings of a call are short. -/
def ShortOp {K : Type} : WOp K → Prop
  | .vendor s => ShortStr s
  | .description s => ShortStr s
  | .license s => ShortStr s
  | .addAs _ name => ShortStr name
  | .renameAs _ name => ShortStr name
  | .addCountry _ _ name => ShortStr name
  | _ => True

/-- A writer after some history. -/
def Writes {K : Type} (ctz0 : Nat) (key1 key2 : Option K) (ops : List (WOp K)) (w : Writer K) : Prop :=
  (∀ op ∈ ops, OpOk ctz0 op) ∧ ∃ w0, writerNew key1 key2 = .ok w0 ∧ wrun w0 ops = .ok w

/-- The value last set by the calls selected by `f`; the empty string if there was none. -/
def lastSet {K : Type} (f : WOp K → Option CStr) (ops : List (WOp K)) : CStr :=
  ops.foldl (fun acc op => match f op with | some s => s | none => acc) []

def vendorCall {K : Type} : WOp K → Option CStr
  | .vendor s => s
  | _ => none

def descriptionCall {K : Type} : WOp K → Option CStr
  | .description s => s
  | _ => none

def licenseCall {K : Type} : WOp K → Option CStr
  | .license s => s
  | _ => none

/-- The ASes a history asks for: each number with the name of its first addition, or the name it was
    given later. -/
def asStep {K : Type} (m : BitVec 32 → Option (Option CStr)) : WOp K → BitVec 32 → Option (Option CStr)
  | .addAs number name, k => if k = number ∧ m k = none then some name else m k
  | .renameAs number name, k => if k = number ∧ m k ≠ none then some name else m k
  | _, k => m k

def asesOf {K : Type} (ops : List (WOp K)) : BitVec 32 → Option (Option CStr) :=
  ops.foldl asStep (fun _ => none)

/-- The continent code that is kept: two bytes. -/
def keptContinent : Option CStr → Option CStr
  | some [a, b] => some [a, b]
  | _ => none

/-- The countries a history asks for: each valid code with continent and name of its first addition. -/
def countryStep {K : Type} (m : CStr → Option (Option CStr × Option CStr)) :
    WOp K → CStr → Option (Option CStr × Option CStr)
  | .addCountry (some code) continent name, k =>
    if k = code ∧ ValidCC code ∧ m k = none then some (keptContinent continent, name) else m k
  | _, k => m k

def countriesOf {K : Type} (ops : List (WOp K)) : CStr → Option (Option CStr × Option CStr) :=
  ops.foldl countryStep (fun _ => none)

/-- The codes of all accepted country additions, in the order of the calls. -/
def codesAdded {K : Type} (ops : List (WOp K)) : List CStr :=
  ops.filterMap fun op => match op with
    | .addCountry (some code) _ _ => if ValidCC code then some code else none
    | _ => none

/-- The position of a two letter code in alphabetical order. -/
def codeNumber (s : CStr) : Nat := s.foldl (fun acc b => acc * 256 + b.toNat) 0

/-- The networks a history without writes asks for: the first network added for each block, changed by the
    setters called on it later. -/
def networkStep {K : Type} (l : List Network) : WOp K → List Network
  | .addNetwork n => if ∃ m ∈ l, SameBlock m n then l else l ++ [n]
  | .changeNetwork n n' => l.map fun k => if k = n then n' else k
  | _ => l

def networksOf {K : Type} (ops : List (WOp K)) : List Network := ops.foldl networkStep []

def IsWrite {K : Type} : WOp K → Bool
  | .write _ _ _ => true
  | _ => false

/-- Additions of networks and ASes. -/
def IsAddition {K : Type} : WOp K → Bool
  | .addNetwork _ => true
  | .addAs _ _ => true
  | _ => false

/-- Two additions do not concern the same block or the same AS. -/
def Different {K : Type} : WOp K → WOp K → Prop
  | .addNetwork m, .addNetwork n => ¬ SameBlock m n
  | .addAs k _, .addAs l _ => k ≠ l
  | _, _ => True

/-- After the history `ops`, a write produced the file `f` (over a file with any content, for any
    accepted version); `w'` is the writer afterwards, whose tree holds exactly the networks that
    are in the file.  Offsets in the file have 32 bits, so files of 4 GiB or more are left out. -/
def Written {K : Type} (ctz0 : Nat) (key1 key2 : Option K) (ops : List (WOp K)) (e : WEnv K) (w' : Writer K) (f : Bytes) : Prop :=
  ∃ w old version, Writes ctz0 key1 key2 ops w ∧ e.ctz0 = ctz0 ∧ writerWrite e w old version = .ok (w', some f) ∧
    f.length < 2 ^ 32

end Loc.Spec
