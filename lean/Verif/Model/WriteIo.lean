import Verif.Model.Writer
/-
Model of writing a database to a stream that may fail: `src/writer.c` (`align_page_boundary`, `loc_database_write_*`,
`loc_writer_create_signature`, `loc_writer_write`), `src/stringpool.c` (`loc_stringpool_write`).
-/
namespace Loc

/-- A stream, as the library of C and what is below it behave: any state `σ`, buffered or not.  The results are those of `fwrite`
    (the number of bytes it reports), of `fseek` to a position, by a distance and to the end (whether it succeeds), of `rewind`
    and reading up to the end (`none`: an error while reading), and of `fflush` (its result is ignored). -/
structure IoDev (σ : Type) where
  write : σ → Bytes → Nat × σ
  seek : σ → Nat → Bool × σ
  seekBy : σ → Nat → Bool × σ
  seekEnd : σ → Bool × σ
  read : σ → Option Bytes × σ
  flush : σ → σ

/-- `*offset += fwrite(…)` for each record, writer.c:327, 485, 511, 541 -/
def ioRecords {σ : Type} (d : IoDev σ) : σ → Nat → List Bytes → Nat × σ
  | f, off, [] => (off, f)
  | f, off, b :: l => ioRecords d (d.write f b).2 (off + (d.write f b).1) l

/-- `align_page_boundary`, writer.c:283-287.  `fuel` bounds the number of rounds. -/
def ioAlign {σ : Type} (d : IoDev σ) : Nat → σ → Nat → Res (Nat × σ)
  | 0, _, _ => .error .diverge
  | fuel + 1, f, off =>
    if off % pageSize = 0 then .ok (off, f) else ioAlign d fuel (d.write f [0]).2 (off + (d.write f [0]).1)

/-- The records of a section.  `n` is at least the number of them. -/
def sliceRecords (k : Nat) : Nat → Bytes → List Bytes
  | 0, _ => []
  | n + 1, b => if b.isEmpty then [] else b.take k :: sliceRecords k n (b.drop k)

/-- One of the sections, writer.c:305-341, 391-522, 524-551: the offset behind it -/
def ioSection {σ : Type} (d : IoDev σ) (fuel : Nat) (f : σ) (off k : Nat) (b : Bytes) : Res (Nat × σ) :=
  let r := ioRecords d f off (sliceRecords k b.length b)
  ioAlign d fuel r.2 r.1

/-- `loc_writer_create_signature`, writer.c:553-643: the file is read again.  Simplified: it is read before the context for
    signing is created. -/
def ioSign {σ K : Type} (d : IoDev σ) (sign : K → Bytes → SignOut) (key : Option K) (f : σ) (h : Header) (buf : Bytes) (len : Nat) :
    Res (Bytes × Nat) × σ :=
  match key with
  | none => (.ok (buf, len), f)
  | some k =>
    match d.read f with
    | (none, f) => (.error (.err 1), f)
    | (some data, f) =>
      if data.length < magicSize then (.error (.err 1), f)
      else (createSignature sign k (data.take magicSize ++ headerBytes h [] [] ++ data.drop (magicSize + headerSize)) buf, f)

/-- writer.c:727-786: the signatures and the header.  When less than the header is written, the function returns `r`, which is 0
    at that place (writer.c:767-775). -/
def ioFinish {σ K : Type} (d : IoDev σ) (e : WEnv K) (w : Writer K) (f : σ) (h : Header) : Writer K × Nat × σ :=
  match ioSign d e.sign w.key1 f h w.sig1 w.sig1Len with
  | (.error _, f) => (w, 1, f)
  | (.ok (sig1, len1), f) =>
  match ioSign d e.sign w.key2 f h w.sig2 w.sig2Len with
  | (.error _, f) => (w, 1, f)
  | (.ok (sig2, len2), f) =>
  let w := { w with sig1 := sig1, sig1Len := len1, sig2 := sig2, sig2Len := len2 }
  match d.seek f magicSize with
  | (false, f) => (w, 1, f)
  | (true, f) =>
  let r := d.write f (headerBytes h (sig1.take len1) (sig2.take len2))
  if r.1 < headerSize then (w, 0, r.2)
  else
  match d.seekEnd r.2 with
  | (false, f) => (w, 1, f)
  | (true, f) => (w, 0, d.flush f)

/-- writer.c:686-700: the magic, and the space for the header; the offset and the stream behind the padding, `none` when an
    error is returned. -/
def ioStart {σ : Type} (d : IoDev σ) (fuel : Nat) (f : σ) : Res (Option Nat × σ) :=
  match d.seek f 0 with
  | (false, f) => .ok (none, f)
  | (true, f) =>
  match d.seekBy (d.write f magic).2 headerSize with
  | (false, g) => .ok (none, g)
  | (true, g) =>
  match ioAlign d fuel g ((d.write f magic).1 + headerSize) with
  | .error x => .error x
  | .ok (off, g) => .ok (some off, g)

/-- writer.c:702-724: the sections; the header and the stream.  The length of the pool is what `fwrite` reports
    (stringpool.c:223-228), all other lengths are those of the sections. -/
def ioBody {σ K : Type} (d : IoDev σ) (fuel : Nat) (e : WEnv K) (w : Writer K) (s : Sections) (f : σ) (o1 : Nat) : Res (Header × σ) :=
  match ioSection d fuel f o1 asSize s.ases with
  | .error x => .error x
  | .ok (o2, f) =>
  match ioSection d fuel f o2 nodeSize s.tree with
  | .error x => .error x
  | .ok (o3, f) =>
  match ioSection d fuel f o3 netSize s.nets with
  | .error x => .error x
  | .ok (o4, f) =>
  match ioSection d fuel f o4 countrySize s.countries with
  | .error x => .error x
  | .ok (o5, f) =>
  .ok (⟨e.now, w.vendor, w.description, w.license, o1, s.ases.length, o3, s.nets.length, o2, s.tree.length,
    o4, s.countries.length, o5, (d.write f s.pool).1⟩, (d.write f s.pool).2)

/-- `loc_writer_write`, writer.c:645-786: the writer, the return value (1 stands for any error) and the stream.  Simplified: what
    is in the sections does not depend on the stream, so that it is computed first. -/
def ioWrite {σ K : Type} (d : IoDev σ) (fuel : Nat) (e : WEnv K) (w : Writer K) (f : σ) (version : Nat) : Res (Writer K × Nat × σ) :=
  match writeVersion version with
  | .error _ => .ok (w, 1, f)
  | .ok _ =>
  match writeSections e w with
  | .error x => .error x
  | .ok (s, w) =>
  match ioStart d fuel f with
  | .error x => .error x
  | .ok (none, f) => .ok (w, 1, f)
  | .ok (some off, f) =>
  match ioBody d fuel e w s f off with
  | .error x => .error x
  | .ok (h, f) => .ok (ioFinish d e w f h)

end Loc
