import Verif.Model.Database
/-
Model of `location update`: `src/python/location/downloader.py` and `handle_update` in
`src/scripts/location.in`.
-/
namespace Loc

/-- What happens when a mirror is asked (downloader.py:127-167): the response ends and could be decompressed to
    these bytes; the decompression failed after these bytes; the server reported an HTTP error; any other exception
    (no connection, connection lost) after these bytes. -/
inductive Reply
  | data (plain : Bytes)
  | corrupt (part : Bytes)
  | httpError (code : Nat)
  | lost (part : Bytes)
  deriving DecidableEq, Repr

/-- The temporary file: its content and the position of the file object. -/
structure TmpFile where
  content : Bytes
  pos : Nat
  deriving DecidableEq, Repr

/-- `tempfile.NamedTemporaryFile()`, downloader.py:121: an empty file -/
def tmpNew : TmpFile := ⟨[], 0⟩

/-- `t.write(buf)`, downloader.py:144: the bytes are put at the position of the file object, which advances. -/
def tmpWrite (t : TmpFile) (b : Bytes) : TmpFile :=
  ⟨t.content.take t.pos ++ List.replicate (t.pos - t.content.length) 0 ++ b ++ t.content.drop (t.pos + b.length), t.pos + b.length⟩

/-- `t.truncate()`, downloader.py:165 and 173: Python cuts the file off at the position of the file object, which
    stays. -/
def tmpTruncate (t : TmpFile) : TmpFile := { t with content := t.content.take t.pos }

/-- A 64 bit number as a signed one (`time_t`). -/
def toSigned64 (x : Nat) : Int := if x < 2 ^ 63 then x else (x : Int) - 2 ^ 64

/-- `Database.created_at`, python/database.c:136-140 with `loc_database_created_at`, database.c:705-707 -/
def pyCreatedAt (db : Db) : Int := toSigned64 db.createdAt

/-- How a Python function ends: a value or an exception. -/
inductive Py (α : Type)
  | ok (x : α)
  | raised
  deriving DecidableEq, Repr

/-- `time.gmtime` (downloader.py:203) raises an exception if the year does not fit into an `int`. -/
def gmtimeRaises (t : Int) : Bool := decide (t < -67768040609740800) || decide (67768036191676799 < t)

/-- `Downloader._check_database`, downloader.py:187-211, with `Database(...)` (python/database.c:46-78) and
    `db.verify` (lines 84-110).  A timestamp of 0 counts as none, as in Python.  `v` is the public key (which can be
    opened). -/
def checkDatabase {P : Type} (v : VEnv P) (timestamp : Option Nat) (file : Bytes) : Res (Py Bool) :=
  match dbOpen file with
  | .error (.err _) => .ok .raised
  | .error e => .error e
  | .ok db =>
    if timestamp.any (fun (t : Nat) => decide (t ≠ 0) && decide (pyCreatedAt db < (t : Int))) then .ok (.ok false)
    else if gmtimeRaises (pyCreatedAt db) then .ok .raised
    else match dbVerify v db with
      | .error e => .error e
      | .ok r => .ok (.ok (decide (r = 0)))

/-- The loop of `Downloader.download`, downloader.py:124-185; the result is the content of the file that is
    returned.  `FileNotFoundError` is `none`. -/
def downloadLoop {P : Type} (v : VEnv P) (timestamp : Option Nat) : TmpFile → List Reply → Res (Py (Option Bytes))
  | _, [] => .ok (.ok none)
  | t, .corrupt part :: rest => downloadLoop v timestamp (tmpWrite t part) rest
  | t, .httpError _ :: rest => downloadLoop v timestamp (tmpTruncate t) rest
  | _, .lost _ :: _ => .ok .raised
  | t, .data plain :: rest =>
    match checkDatabase v timestamp (tmpWrite t plain).content with
    | .error e => .error e
    | .ok .raised => .ok .raised
    | .ok (.ok false) => downloadLoop v timestamp (tmpTruncate (tmpWrite t plain)) rest
    | .ok (.ok true) => .ok (.ok (some (tmpWrite t plain).content))

/-- `Downloader.download`, downloader.py:112-185 -/
def download {P : Type} (v : VEnv P) (timestamp : Option Nat) (mirrors : List Reply) : Res (Py (Option Bytes)) :=
  downloadLoop v timestamp tmpNew mirrors

/-- `--cron`, location.in:425-442, with the time now: is the database recent enough? -/
def cronSkip (cron : Option Int) (now : Int) (db : Db) : Bool :=
  match cron with
  | none => false
  | some delta => decide (pyCreatedAt db ≥ now - delta)

/-- `CLI.run`, location.in:206-221: opening the local database (`none`: there is no such file, which is fine for
    `update`). -/
def localDb : Option Bytes → Res (Py (Option Db))
  | none => .ok (.ok none)
  | some b =>
    match dbOpen b with
    | .error (.err _) => .ok .raised
    | .error e => .error e
    | .ok db => .ok (.ok (some db))

/-- "Already on the latest version", location.in:447-450 -/
def upToDate (db : Option Db) (latest : Option Nat) : Bool :=
  db.any fun db => latest.any fun (t : Nat) => decide (t ≠ 0) && decide (pyCreatedAt db ≥ (t : Int))

/-- `location update`: `CLI.run` (location.in:206-221, 233-244) and `handle_update` (location.in:424-474).  `file` is the
    local database (`none`: there is no such file), `latest` what `discover_latest_version` returned, `mirrors` what
    the mirrors answer in the order in which they are asked.  The result is the local database afterwards and
    whether the exit code is 0.  Moving the temporary file to its place is taken to succeed. -/
def update {P : Type} (v : VEnv P) (cron : Option Int) (now : Int) (latest : Option Nat) (mirrors : List Reply) (file : Option Bytes) :
    Res (Option Bytes × Bool) :=
  match localDb file with
  | .error e => .error e
  | .ok .raised => .ok (file, false)
  | .ok (.ok db) =>
    if db.any (cronSkip cron now) then .ok (file, false)
    else if upToDate db latest then .ok (file, true)
    else match download v latest mirrors with
      | .error e => .error e
      | .ok .raised => .ok (file, false)
      | .ok (.ok none) => .ok (file, false)
      | .ok (.ok (some b)) => .ok (some b, true)

end Loc
