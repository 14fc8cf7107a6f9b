import Verif.Model.EnumLife
/-
What a program that enumerates networks can do with the objects it gets.
-/
namespace Loc.Spec
open Loc

/-- How many references there are to an object that has not been released; 0 for a released one. -/
def references (h : Heap) (i : Nat) : Nat :=
  match h[i]? with
  | some (_, k) => k
  | none => 0

/-- A program with an enumerator: all objects, the enumerator with its stack, the references the program holds, and the
    objects it got so far. -/
structure EnumUse where
  heap : Heap
  enum : NetEnum
  stack : List Nat
  held : List Nat
  got : List Nat

/-- The program asks for the next network, takes another reference to an object it holds, or gives one back. -/
inductive EnumStep (db : Db) (mode : NetMode) : EnumUse → EnumUse → Prop
  | next {s : EnumUse} {fuel : Nat} {r : LNext} {h : Heap} {e : NetEnum} {stack : List Nat}
      (hr : lNext db mode fuel s.heap s.enum s.stack = .ok (r, h, e, stack)) :
      EnumStep db mode s ⟨h, e, stack, r.given ++ s.held, r.given ++ s.got⟩
  | take {s : EnumUse} {i : Nat} {h : Heap} (hi : i ∈ s.held) (hr : ref s.heap i = .ok h) :
      EnumStep db mode s { s with heap := h, held := i :: s.held }
  | release {s : EnumUse} {i : Nat} {h : Heap} (hi : i ∈ s.held) (hr : unref s.heap i = .ok h) :
      EnumStep db mode s { s with heap := h, held := s.held.erase i }

/-- Everything that can happen with a new enumerator (whatever its filter) in a program with the objects of `h0`. -/
inductive EnumRun (db : Db) (mode : NetMode) (h0 : Heap) : EnumUse → Prop
  | start (f : Filter) : EnumRun db mode h0 ⟨h0, enumNew f, [], [], []⟩
  | step {s s' : EnumUse} (h : EnumRun db mode h0 s) (hs : EnumStep db mode s s') : EnumRun db mode h0 s'

/-- What the objects stand for: the enumerator of C16, C28 and C29, with networks instead of objects on its stack. -/
def StandsFor (s : EnumUse) (e : NetEnum) : Prop :=
  e = { s.enum with stack := e.stack } ∧ s.stack.map (deref s.heap) = e.stack.map .ok

/-- The functions of C16, C28 and C29. -/
def nextOf (db : Db) (mode : NetMode) (fuel : Nat) (e : NetEnum) : Res (Next Network × NetEnum) :=
  match mode with
  | .plain => nextNetwork db e
  | .flat => nextNetworkFlat db fuel e
  | .bogons => nextBogon db fuel e

/-- The call returned an object with this network in it, came to the end, or failed. -/
def Returns (h : Heap) (r : LNext) (x : Next Network) : Prop :=
  match x with
  | .item n => ∃ i, r = .item i ∧ deref h i = .ok n
  | .done => r = .done
  | .failed => r = .failed none
  | .failedHeld => ∃ i, r = .failed (some i)

end Loc.Spec
