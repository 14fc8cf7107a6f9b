import Verif.Model.Text
import Verif.Model.Export
/-
The output formats of `location export` and `location list-networks-by-…`: `src/python/location/export.py`
(`OutputWriter` and its subclasses), `src/scripts/location.in`.
-/
namespace Loc

/-- What a Python file object writes to: a regular file (also `io.StringIO`), a pipe or terminal, which cannot be rewound, or
    a file that was opened for appending (standard output after `>>` in a shell). -/
inductive FileKind
  | file
  | pipe
  | append
  deriving DecidableEq, Repr

structure OutFile where
  kind : FileKind
  content : Bytes
  pos : Nat

/-- `f.write(s)`: a regular file is overwritten at the position, which advances. -/
def filePut (f : OutFile) (s : Bytes) : OutFile :=
  match f.kind with
  | .file => { f with content := f.content.take f.pos ++ s ++ f.content.drop (f.pos + s.length), pos := f.pos + s.length }
  | _ => { f with content := f.content ++ s }

/-- `f.seek(0)`; `none` is `io.UnsupportedOperation`. -/
def fileRewind (f : OutFile) : Option OutFile :=
  match f.kind with
  | .pipe => none
  | _ => some { f with pos := 0 }

/-- `formats`, export.py:234-239 -/
inductive Format
  | list
  | ipset
  | nftables
  | xtGeoip
  deriving DecidableEq, Repr

/-- `OutputWriter._make_tag`, export.py:78-84; the family is 2 (AF_INET), 10 (AF_INET6) or 0 (not set). -/
def makeTag (name : CStr) (family : Nat) : CStr :=
  name ++ [118, if family = 10 then 54 else if family = 2 then 52 else 63]

/-- The name of the output for an AS: `"AS%s" % asn`, export.py:257, location.in:517 -/
def asName (number : Nat) : CStr := [65, 83] ++ decStr number

/-- `IpsetOutputWriter.hashsize`, export.py:155-168.  `expo n` stands for `math.ceil(math.log(n / 0.75, 2))` in floating
    point arithmetic. -/
def hashsize (expo : Nat → Nat) (networks : Nat) : Nat := if networks = 0 then 64 else max (2 ^ expo networks) 64

/-- `%8d` -/
def pad8 (s : CStr) : CStr := List.replicate (8 - s.length) 32 ++ s

/-- "create " -/
def strCreate : CStr := [99, 114, 101, 97, 116, 101, 32]
/-- " hash:net family inet" -/
def strFamily : CStr := [32, 104, 97, 115, 104, 58, 110, 101, 116, 32, 102, 97, 109, 105, 108, 121, 32, 105, 110, 101, 116]
/-- " hashsize " -/
def strHashsize : CStr := [32, 104, 97, 115, 104, 115, 105, 122, 101, 32]
/-- " maxelem 1048576 -exist", newline -/
def strMaxelem : CStr := [32, 109, 97, 120, 101, 108, 101, 109, 32, 49, 48, 52, 56, 53, 55, 54, 32, 45, 101, 120, 105, 115, 116, 10]
/-- "flush " -/
def strFlush : CStr := [102, 108, 117, 115, 104, 32]
/-- "add " -/
def strAdd : CStr := [97, 100, 100, 32]
/-- "define " -/
def strDefine : CStr := [100, 101, 102, 105, 110, 101, 32]
/-- " = {", newline -/
def strOpen : CStr := [32, 61, 32, 123, 10]
/-- "}", newline -/
def strClose : CStr := [125, 10]

/-- `IpsetOutputWriter._write_header`, export.py:170-177 -/
def ipsetHeader (expo : Nat → Nat) (tag : CStr) (family networks : Nat) : CStr :=
  strCreate ++ tag ++ strFamily ++ (if family = 10 then [54] else []) ++ strHashsize ++ pad8 (decStr (hashsize expo networks)) ++ strMaxelem ++
    strFlush ++ tag ++ [10]

/-- The constructor of a writer, export.py:45-67, with `init` and `_write_header` of the classes.  `IpsetOutputWriter` raises
    an exception if there is no family (lines 151-152); `XTGeoIPOutputWriter` always does, because `tag` is a property that
    cannot be set (lines 51 and 221-223). -/
def writerStart (fmt : Format) (expo : Nat → Nat) (tag : CStr) (family : Nat) (f : OutFile) : Py OutFile :=
  match fmt with
  | .list => .ok f
  | .ipset => if family = 0 then .raised else .ok (filePut f (ipsetHeader expo tag family 0))
  | .nftables => .ok (filePut f (strDefine ++ tag ++ strOpen))
  | .xtGeoip => .raised

/-- What `write` of the classes writes for the text of a network, export.py:103-104, 179-183, 210-211 -/
def networkLine (fmt : Format) (tag s : CStr) : CStr :=
  match fmt with
  | .list => s ++ [10]
  | .ipset => strAdd ++ tag ++ 32 :: s ++ [10]
  | .nftables => 9 :: s ++ [44, 10]
  | .xtGeoip => []

/-- `finish` with `_write_footer` of the classes, export.py:106-113, 185-195, 207-208 -/
def writerFinish (fmt : Format) (expo : Nat → Nat) (tag : CStr) (family networks : Nat) (f : OutFile) : OutFile :=
  match fmt with
  | .ipset =>
    match fileRewind f with
    | none => f
    | some f => filePut f (ipsetHeader expo tag family networks)
  | .nftables => filePut f strClose
  | _ => f

/-- A writer from its start to its end with the texts of the networks. -/
def writerRun (fmt : Format) (expo : Nat → Nat) (tag : CStr) (family : Nat) (nets : List CStr) (f : OutFile) : Py OutFile :=
  match writerStart fmt expo tag family f with
  | .raised => .raised
  | .ok f => .ok (writerFinish fmt expo tag family nets.length (nets.foldl (fun f s => filePut f (networkLine fmt tag s)) f))

/-- An empty file. -/
def newFile (kind : FileKind) : OutFile := ⟨kind, [], 0⟩

/-- `handle_list_networks_by_as` and `handle_list_networks_by_cc`, location.in:512-536: one writer after the other on
    standard output.  `handle_list_networks_by_flags` and `handle_list_bogons` (lines 538-571) have one writer. -/
def listRunOn (fmt : Format) (expo : Nat → Nat) (family : Nat) : List (CStr × List CStr) → OutFile → Py OutFile
  | [], f => .ok f
  | (name, nets) :: rest, f =>
    match writerRun fmt expo (makeTag name family) family nets f with
    | .raised => .raised
    | .ok f => listRunOn fmt expo family rest f

/-- The end of `Exporter.export` without a directory, export.py:293-300, with `print`, lines 115-127: every writer (family,
    name, networks) has a buffer of its own (`io.StringIO`), and all of them are copied to standard output.  In the code
    the writers of a family are started first and get their networks in turn, which makes no difference, because they
    have nothing in common. -/
def exportPrint (fmt : Format) (expo : Nat → Nat) : List (Nat × CStr × List CStr) → Py Bytes
  | [] => .ok []
  | (family, name, nets) :: rest =>
    match writerRun fmt expo (makeTag name family) family nets (newFile .file) with
    | .raised => .raised
    | .ok f =>
      match exportPrint fmt expo rest with
      | .raised => .raised
      | .ok out => .ok (f.content ++ out)

/-- The text of a network: what `loc_network_str` (network.c:129-149) returns, see `networkStr`. -/
def netText (n : Network) : CStr := addrText n.first ++ 47 :: decStr (netPrefix n)

end Loc
