import Verif.Model.WriteIo
/-
Specification vocabulary for writing to a stream that may fail.
-/
namespace Loc.Spec

/-- Writing into a file at a position, which may lie behind its end. -/
def overlay (data : Bytes) (pos : Nat) (b : Bytes) : Bytes :=
  if b.isEmpty then data
  else data.take pos ++ List.replicate (pos - data.length) 0 ++ b ++ data.drop (pos + b.length)

/-- The stream is a file: `view` gives its contents and the position in it.  Everything but writing works always; writing `len`
    bytes at `pos` works at least when `can pos len`. -/
structure IsFile {σ : Type} (d : IoDev σ) (can : Nat → Nat → Prop) (view : σ → Bytes × Nat) : Prop where
  write : ∀ s b, can (view s).2 b.length → (d.write s b).1 = b.length ∧
    view (d.write s b).2 = (overlay (view s).1 (view s).2 b, (view s).2 + b.length)
  seek : ∀ s p, (d.seek s p).1 = true ∧ view (d.seek s p).2 = ((view s).1, p)
  seekBy : ∀ s p, (d.seekBy s p).1 = true ∧ view (d.seekBy s p).2 = ((view s).1, (view s).2 + p)
  seekEnd : ∀ s, (d.seekEnd s).1 = true ∧ (view (d.seekEnd s).2).1 = (view s).1
  read : ∀ s, (d.read s).1 = some (view s).1 ∧ (view (d.read s).2).1 = (view s).1
  flush : ∀ s, (view (d.flush s)).1 = (view s).1

/-- The size of the database, without what was behind it in the file before. -/
def fileSize (s : Sections) : Nat := magicSize + headerSize + (bodyBytes s).length

/-- A file where writing works as `taken pos len` says: the number of bytes that are written. -/
def fileDev (taken : Nat → Nat → Nat) : IoDev (Bytes × Nat) where
  write f b := (min (taken f.2 b.length) b.length,
    (overlay f.1 f.2 (b.take (taken f.2 b.length)), f.2 + min (taken f.2 b.length) b.length))
  seek f p := (true, (f.1, p))
  seekBy f p := (true, (f.1, f.2 + p))
  seekEnd f := (true, (f.1, f.1.length))
  read f := (some f.1, (f.1, f.1.length))
  flush f := f

/-- A limit for the size of files, as a quota or a full disk set it, on a stream that is not buffered. -/
def limited (limit : Nat) : IoDev (Bytes × Nat) := fileDev fun pos len => min len (limit - pos)

/-- A stream that is opened for reading only. -/
def readOnly : IoDev (Bytes × Nat) := fileDev fun _ _ => 0

/-- The disk becomes full when the header is to be written, for which there was only a hole in the file so far. -/
def fullAtHeader : IoDev (Bytes × Nat) := fileDev fun pos len => if pos = magicSize then 0 else len

end Loc.Spec
