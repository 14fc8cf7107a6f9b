import Verif.Model.ReadIo
/-
Specification of reading through streams: what an honest stream does, and two examples of streams.
-/
namespace Loc.Spec
open Loc

/-- The stream `d` reads the file `file`.  `pos` is the position of the stream, `faults` the number of
    read errors which are still to come.  A read gives the bytes at the position, and as many as asked for unless
    the file ends (then `feof` holds) or an error occurs (then `feof` is left as it was). -/
structure Reader {σ : Type} (d : ReadDev σ) (file : Bytes) (pos : σ → Nat) (faults : σ → Nat) : Prop where
  start : ∀ s, pos (d.rewind s) = 0
  clear : ∀ s, d.eof (d.rewind s) = false
  same : ∀ s, faults (d.rewind s) = faults s
  data : ∀ s n, (d.read s n).1 <+: file.drop (pos s)
  most : ∀ s n, (d.read s n).1.length ≤ n
  move : ∀ s n, pos (d.read s n).2 = pos s + (d.read s n).1.length
  less : ∀ s n, faults (d.read s n).2 ≤ faults s
  full : ∀ s n, (d.read s n).1.length = n → d.eof (d.read s n).2 = d.eof s
  short : ∀ s n, (d.read s n).1.length < n →
    (d.eof (d.read s n).2 = true ∧ file.length ≤ pos (d.read s n).2) ∨
    (d.eof (d.read s n).2 = d.eof s ∧ faults (d.read s n).2 < faults s)

/-- A disk which cannot be read from position `bad` on: the state is the position and `feof`.  With
    `bad = file.length` it is a disk without errors. -/
def badDisk (file : Bytes) (bad : Nat) : ReadDev (Nat × Bool) where
  rewind _ := (0, false)
  read s n :=
    (((file.drop s.1).take (min n (bad - s.1))),
     (s.1 + ((file.drop s.1).take (min n (bad - s.1))).length,
      s.2 || (decide (((file.drop s.1).take (min n (bad - s.1))).length < n) &&
        decide (file.length ≤ s.1 + ((file.drop s.1).take (min n (bad - s.1))).length))))
  eof s := s.2

/-- A stream whose next reads, as many as the third number says, are interrupted half way. -/
def flaky (file : Bytes) : ReadDev (Nat × Bool × Nat) where
  rewind s := (0, false, s.2.2)
  read s n :=
    if s.2.2 = 0 ∨ n = 0 then
      (((file.drop s.1).take n),
       (s.1 + ((file.drop s.1).take n).length, s.2.1 || decide (((file.drop s.1).take n).length < n), s.2.2))
    else
      (((file.drop s.1).take (n / 2)), (s.1 + ((file.drop s.1).take (n / 2)).length, s.2.1, s.2.2 - 1))
  eof s := s.2.1

end Loc.Spec
