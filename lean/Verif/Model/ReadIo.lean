import Verif.Model.Database
/-
Opening and verifying a database through a stream whose reads may fail (`src/database.c`).
-/
namespace Loc

/-- What the C library offers for reading: `rewind`, `fread(buffer, 1, n, f)` with the bytes it stored, and
    `feof`.  `σ` is the state of the stream. -/
structure ReadDev (σ : Type) where
  rewind : σ → σ
  read : σ → Nat → Bytes × σ
  eof : σ → Bool

/-- The loop of database.c:627-642, `while (!feof(db->f))`: the bytes which are fed into the verification, in
    chunks of 64 KiB.  `fuel` bounds the number of rounds; running out of it is `.diverge`. -/
def readRest {σ : Type} (d : ReadDev σ) : Nat → σ → Res (Bytes × σ)
  | 0, _ => .error .diverge
  | fuel + 1, s =>
    if d.eof s then .ok ([], s)
    else
      match readRest d fuel (d.read s (64 * 1024)).2 with
      | .error e => .error e
      | .ok r => .ok ((d.read s (64 * 1024)).1 ++ r.1, r.2)

/-- database.c:599-603: the header which has been read, with the signatures and their lengths cleared. -/
def clearHeader (h : Bytes) : Bytes :=
  h.take 60 ++ List.replicate 4 0 ++ List.replicate sigMax 0 ++ List.replicate sigMax 0 ++
    (h.drop (64 + 2 * sigMax)).take 32

/-- database.c:647-665 / 667-685: one signature of the mapped file is checked against the message which has
    been read from the stream. -/
def checkRead {P : Type} (check : P → Bytes → Bytes → VerifyOut) (key : P) (mapped msg : Bytes) (off len : Nat) :
    Res (Option Bool) :=
  if len = 0 then .ok (some false)
  else match rd mapped off len with
    | .error e => .error e
    | .ok sig =>
      match check key msg sig with
      | .valid => .ok (some true)
      | .invalid => .ok (some false)
      | .error => .ok none

/-- database.c:644-696: both signatures. -/
def judge {P : Type} (check : P → Bytes → Bytes → VerifyOut) (key : P) (db : Db) (msg : Bytes) : Res Int :=
  match checkRead check key db.file msg db.sig1Off db.sig1Len with
  | .error e => .error e
  | .ok none => .ok (-1)
  | .ok (some ok1) =>
    match checkRead check key db.file msg db.sig2Off db.sig2Len with
    | .error e => .error e
    | .ok none => .ok (-1)
    | .ok (some ok2) => .ok (if ok1 || ok2 then 0 else 1)

/-- `loc_database_verify`, database.c:531-703, reading `db->f` through `d`: the returned number and the stream.
    As in `dbVerify` the failures of OpenSSL are known in advance (`v.ready`). -/
def verifyIo {σ P : Type} (d : ReadDev σ) (fuel : Nat) (v : VEnv P) (db : Db) (s : σ) : Res (Int × σ) :=
  match v.key with
  | none => .ok (-1, s)
  | some key =>
    if !v.ready then .ok (1, s)
    else if (d.read (d.rewind s) magicSize).1.length < magicSize then .ok (1, (d.read (d.rewind s) magicSize).2)
    else if (d.read (d.read (d.rewind s) magicSize).2 headerSize).1.length < headerSize then
      .ok (1, (d.read (d.read (d.rewind s) magicSize).2 headerSize).2)
    else
      match readRest d fuel (d.read (d.read (d.rewind s) magicSize).2 headerSize).2 with
      | .error e => .error e
      | .ok r =>
        match judge v.check key db ((d.read (d.rewind s) magicSize).1 ++
            clearHeader (d.read (d.read (d.rewind s) magicSize).2 headerSize).1 ++ r.1) with
        | .error e => .error e
        | .ok n => .ok (n, r.2)

/-- `loc_database_check_magic`, database.c:200-233, on the bytes `fread` stored -/
def magicIo (b : Bytes) : Nat :=
  if b.length < magicSize then ENOMSG
  else if b.take 7 = magicBytes then
    (if (b.drop 7).take 1 = [1] then 0 else ENOTSUP)
  else ENOMSG

/-- Linux: bad file descriptor -/
def EBADF : Nat := 9

/-- `loc_database_open`, database.c:424-455, with `loc_database_clone_handle`, lines 400-422.  `fd` is what
    `dup` returns (-1: it failed; `fdopen` fails then).  The test in line 406 is `!fd`.  The mapping shows the
    contents `file`, mapping succeeds.  Error 0: `errno` is left as it was. -/
def openIo {σ : Type} (d : ReadDev σ) (fd : Int) (file : Bytes) (s : σ) : Res Db × σ :=
  if fd = 0 then (.error (.err 0), s)
  else if fd < 0 then (.error (.err EBADF), s)
  else if magicIo (d.read (d.rewind s) magicSize).1 ≠ 0 then
    (.error (.err (magicIo (d.read (d.rewind s) magicSize).1)), (d.read (d.rewind s) magicSize).2)
  else (readHeader file, d.rewind (d.read (d.rewind s) magicSize).2)

end Loc
