import Verif.Model.Tasks
/-
Specification for the tasks of `update-geofeeds`: what can have happened after a number of steps.
-/
namespace Loc.Spec

/-- The states in which the program can be after `k` steps, if there are `n` geofeeds to be fetched. -/
inductive AfterSteps (n : Nat) : Nat → Tasks → Prop
  | init : AfterSteps n 0 (tasksNew n)
  | step {k : Nat} {s t : Tasks} : AfterSteps n k s → Happens s (some t) → AfterSteps n (k + 1) t

end Loc.Spec
