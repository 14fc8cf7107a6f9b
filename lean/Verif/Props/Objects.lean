import Verif.Lemmas.ObjectsStep
/-
C73: objects of the library live exactly as long as somebody can still reach them.
-/
namespace Loc.Props
open Loc Loc.Objects Loc.Spec

/-- **C73 (first part).**  Whatever fails in the environment: programs that use only objects they hold references to never make
    the library use an object that was released, or an object of another type; and whatever can be reached from the program's
    references still exists. -/
theorem objects_never_stale (fails odd : List Bool) (ops : List OOp) (h : OObeys OProper (oworld fails odd) ops) :
    orun (oworld fails odd) ops ≠ .error .freed ∧ orun (oworld fails odd) ops ≠ .error .kind ∧
      ∀ w, orun (oworld fails odd) ops = .ok w → ∀ i, InUse w.state w.held i → Alive w.state i := by
  cases orun_spec (A := True) ops _ (winv_start True fails odd (.inl trivial)) h (.inl trivial) with
  | inl h =>
    obtain ⟨w, hr, hw⟩ := h
    rw [hr]
    exact ⟨fun h => (by cases h), fun h => (by cases h), fun w' hw' i hi => by cases hw'; exact inUse_exists hw.1 hi⟩
  | inr h =>
    rw [h.2]
    exact ⟨fun h => (by cases h), fun h => (by cases h), fun w' hw' => by cases hw'⟩

/-- **C73 (second part).**  If none of the failures happens that the library does not expect (`odd`) and no call is made that
    is known to leak (`Tidy`), nothing goes wrong, though allocations and all other operations may fail; and what exists is
    what can be reached from the references of the program.  Missing: see the theorems ending with `_violated`. -/
theorem objects_exact_partial (fails : List Bool) (ops : List OOp) (h : OObeys OProper (oworld fails []) ops)
    (ht : OObeys Tidy (oworld fails []) ops) :
    ∃ w, orun (oworld fails []) ops = .ok w ∧ ∀ i, Alive w.state i ↔ InUse w.state w.held i := by
  cases orun_spec (A := False) ops _ (winv_start False fails [] (.inr rfl)) h (.inr ht) with
  | inl h =>
    obtain ⟨w, hr, hw⟩ := h
    exact ⟨w, hr, exists_iff_inUse hw.1⟩
  | inr h => exact absurd h.1 id

/-- In particular, a program that gave back all its references leaves nothing behind. -/
theorem objects_released_partial (fails : List Bool) (ops : List OOp) (h : OObeys OProper (oworld fails []) ops)
    (ht : OObeys Tidy (oworld fails []) ops) :
    ∃ w, orun (oworld fails []) ops = .ok w ∧ (w.held = [] → ∀ i, ¬ Alive w.state i) := by
  obtain ⟨w, hr, hw⟩ := objects_exact_partial fails ops h ht
  refine ⟨w, hr, fun he i hi => ?_⟩
  have hu := (hw i).1 hi
  rw [he] at hu
  clear hi
  induction hu with
  | root h => cases h
  | field _ _ _ ih => exact ih

/-- **C73 (third part).**  Calls change only the objects they are meant to change (`Changes`); all others keep what is in their
    fields, and their types. -/
theorem objects_local (fails odd : List Bool) (ops : List OOp) (h : OObeys OProper (oworld fails odd) ops) {w w' : OWorld}
    (hr : orun (oworld fails odd) ops = .ok w) {op : OOp} (hp : OProper w op) (hs : ostep w op = .ok w') (i : Nat) :
    (∀ o, contents w.state i = some o → ¬ Changes w.state op i → contents w'.state i = some o) ∧
      (∀ k, kindOf w.state i = some k → kindOf w'.state i = some k) := by
  have hw : WInv True w := by
    cases orun_spec (A := True) ops _ (winv_start True fails odd (.inl trivial)) h (.inl trivial) with
    | inl h =>
      obtain ⟨w1, hr1, hw⟩ := h
      rw [hr] at hr1
      cases hr1
      exact hw
    | inr h => rw [hr] at h; cases h.2
  cases ostep_spec hw hp (.inl trivial) with
  | inl h =>
    obtain ⟨w1, hs1, _, t, ht, hE⟩ := h
    rw [hs] at hs1
    cases hs1
    exact ⟨fun o ho hn => hE.content i o (fun hi => hn (ht i hi)) ho, hE.kind i⟩
  | inr h => rw [hs] at h; cases h.2

/-! ### A history that meets the hypotheses -/

instance (w : OWorld) (k : OKind) (i : Nat) : Decidable (Holds w k i) := by unfold Holds; infer_instance

instance (w : OWorld) (op : OOp) : Decidable (OProper w op) := by
  cases op <;> unfold OProper <;> infer_instance

/-- Checking a rule along a history -/
def checked (rule : OWorld → OOp → Bool) : OWorld → List OOp → Bool
  | _, [] => true
  | w, op :: ops => rule w op && (match ostep w op with
    | .ok w => checked rule w ops
    | .error _ => true)

theorem obeys_of_checked {rule : OWorld → OOp → Prop} {check : OWorld → OOp → Bool}
    (h : ∀ w op, check w op = true → rule w op) : ∀ (ops : List OOp) (w : OWorld), checked check w ops = true →
      OObeys rule w ops := by
  intro ops
  induction ops with
  | nil => intro w _; trivial
  | cons op ops ih =>
    intro w hc
    unfold checked at hc
    simp only [Bool.and_eq_true] at hc
    refine ⟨h w op hc.1, fun w' hw' => ih w' ?_⟩
    have h2 := hc.2
    rw [hw'] at h2
    exact h2

theorem proper_of_checked {w : OWorld} {ops : List OOp} (h : checked (fun w op => decide (OProper w op)) w ops = true) :
    OObeys OProper w ops := obeys_of_checked (fun _ _ h => of_decide_eq_true h) ops w h

instance (s : OState) (i : Nat) : Decidable (Alive s i) := by unfold Alive; infer_instance

/-- Checking how a history ends -/
def ends (w : OWorld) (ops : List OOp) (check : OWorld → Bool) : Bool :=
  match orun w ops with
  | .ok w => check w
  | .error _ => false

theorem of_ends {w : OWorld} {ops : List OOp} {P : OWorld → Prop} [∀ w, Decidable (P w)]
    (h : ends w ops (fun w => decide (P w)) = true) : ∃ w', orun w ops = .ok w' ∧ P w' := by
  unfold ends at h
  cases hr : orun w ops with
  | error f => rw [hr] at h; cases h
  | ok w' => rw [hr] at h; exact ⟨w', rfl, of_decide_eq_true h⟩

/-- Checking that a history fails with NULL -/
def nullEnds (w : OWorld) (ops : List OOp) : Bool :=
  match orun w ops with
  | .error .null => true
  | _ => false

theorem of_nullEnds {w : OWorld} {ops : List OOp} (h : nullEnds w ops = true) : orun w ops = .error .null := by
  unfold nullEnds at h
  cases hr : orun w ops with
  | error f => rw [hr] at h; cases f <;> first | rfl | cases h
  | ok w' => rw [hr] at h; cases h

/-- A check for `Tidy` -/
def tidy (w : OWorld) : OOp → Bool
  | .setString e =>
    match contents w.state e with
    | some (.enum _ _ _ string _ _ _ _ _ _) => string.isNone
    | _ => true
  | .pySearch ctx o codes asns =>
    match perform (.pySearch ctx o codes asns) w.state with
    | .ok ([], _) => false
    | _ => true
  | _ => true

theorem tidy_of_checked {w : OWorld} {ops : List OOp} (h : checked tidy w ops = true) : OObeys Tidy w ops := by
  refine obeys_of_checked (fun w op h => ?_) ops w h
  cases op <;> try trivial
  case setString e =>
    intro ctx db mode string countries asns visited stack i j hc
    simp only [tidy, hc] at h
    cases string with
    | none => rfl
    | some x => cases h
  case pySearch ctx o codes asns =>
    intro s hs
    simp only [tidy, hs] at h
    cases h

/-- A database with one AS and one country is opened and enumerated; meanwhile the program drops its own references to the
    database and the context, and an allocation fails.  Object 1 is the database, 5 the enumerator, 9 the list. -/
def enumerating : List OOp :=
  [.newCtx, .openDb 0 [(64500, true)] [([68, 69], false)], .newEnum 1 .countries, .setString 5, .newList .country 0,
   .newCountry 0 [68, 69], .append .country 9 10, .setCountries 5 9, .drop (.item .country) 10, .drop (.list .country) 9,
   .drop .db 1, .drop .ctx 0, .nextCountry 5]

/-- The answers of the environment: only the last object cannot be allocated. -/
def lastFails : List Bool := List.replicate 14 false ++ [true]

example : OObeys OProper (oworld lastFails []) enumerating := proper_of_checked (by decide +kernel)

example : OObeys Tidy (oworld lastFails []) enumerating := tidy_of_checked (by decide +kernel)

/-- The program holds only the enumerator (5), which keeps the database, the context, the list and the country alive. -/
example : ∃ w, orun (oworld lastFails []) enumerating = .ok w ∧ w.held = [5] ∧
    [0, 1, 5, 9, 10].map (refs w.state) = [6, 1, 1, 1, 1] := of_ends (by decide +kernel)

/-- When that is released, nothing is left. -/
example : ∃ w, orun (oworld lastFails []) (enumerating ++ [.drop .enum 5]) = .ok w ∧ w.held = [] ∧
    ∀ p ∈ w.state.objs, p.2 = 0 := of_ends (by decide +kernel)

/-! ### Violations -/

/-- Setting the string of an enumerator again loses the former one: all references are given back, but it still exists. -/
theorem objects_string_violated : ∃ ops, OObeys OProper (oworld [] []) ops ∧ ∃ w, orun (oworld [] []) ops = .ok w ∧
    w.held = [] ∧ Alive w.state 8 :=
  ⟨[.newCtx, .openDb 0 [] [], .newEnum 1 .ases, .setString 5, .setString 5, .drop .enum 5, .drop .db 1, .drop .ctx 0],
    proper_of_checked (by decide +kernel), of_ends (by decide +kernel)⟩

/-- A search from Python with an invalid country code: the enumerator is never released, and with it the database (4), its
    file (5) and its mapping (6). -/
theorem objects_search_violated : ∃ ops, OObeys OProper (oworld [] []) ops ∧ ∃ w, orun (oworld [] []) ops = .ok w ∧
    w.held = [] ∧ Alive w.state 4 ∧ Alive w.state 5 ∧ Alive w.state 6 :=
  ⟨[.newCtx, .pyOpen 0 [] [], .pySearch 0 1 (some [some [90, 90, 90]]) none, .drop .pyDb 1, .drop .ctx 0],
    proper_of_checked (by decide +kernel), of_ends (by decide +kernel)⟩

/-- `dup` returning 0 (the program has closed its standard input), or `fdopen` failing: opening a database fails, and the
    descriptor stays open. -/
theorem objects_descriptor_violated : ∃ ops, ∀ odd ∈ [[true], [false, true]], OObeys OProper (oworld [] odd) ops ∧
    ∃ w, orun (oworld [] odd) ops = .ok w ∧ w.held = [] ∧ Alive w.state 2 := by
  refine ⟨[.newCtx, .openDb 0 [] [], .drop .ctx 0], fun odd ho => ?_⟩
  simp only [List.mem_cons, List.not_mem_nil, or_false] at ho
  cases ho with
  | inl h => subst h; exact ⟨proper_of_checked (by decide +kernel), of_ends (by decide +kernel)⟩
  | inr h => subst h; exact ⟨proper_of_checked (by decide +kernel), of_ends (by decide +kernel)⟩

/-- Running out of memory in these places makes the library follow NULL: copying the string of an enumerator, creating the
    root of the tree of a writer, and growing the strings of a writer (with the next string). -/
theorem objects_memory_violated : ∃ odd1 odd2 odd3 ops1 ops2 ops3,
    (OObeys OProper (oworld [] odd1) ops1 ∧ orun (oworld [] odd1) ops1 = .error .null) ∧
    (OObeys OProper (oworld [] odd2) ops2 ∧ orun (oworld [] odd2) ops2 = .error .null) ∧
    (OObeys OProper (oworld [] odd3) ops3 ∧ orun (oworld [] odd3) ops3 = .error .null) :=
  ⟨[false, false, true], [false, true], [false, false, true],
    [.newCtx, .openDb 0 [] [], .newEnum 1 .ases, .setString 5], [.newCtx, .newWriter 0 false false],
    [.newCtx, .newWriter 0 false false, .setText 1 600000 false, .setText 1 3 false],
    ⟨proper_of_checked (by decide +kernel), of_nullEnds (by decide +kernel)⟩, ⟨proper_of_checked (by decide +kernel), of_nullEnds (by decide +kernel)⟩,
    ⟨proper_of_checked (by decide +kernel), of_nullEnds (by decide +kernel)⟩⟩

/-- `location.Writer(None)` gives back a reference to `None` that belongs to the caller: the caller holds one (object 1), but
    the object was released.  (Python versions in which `None` is immortal do not count these references.) -/
theorem python_none_violated : ∃ w', orun ⟨⟨[(.ctx, 1), (.pyObj, 1)], [], []⟩, [0, 1]⟩ [.pyWriter 0 1 (some 1) none] = .ok w' ∧
    1 ∈ w'.held ∧ ¬ Alive w'.state 1 := of_ends (by decide +kernel)

/-- Calling `__init__` of a Python database again: the first database (4) is never released. -/
theorem python_init_violated : ∃ w, orun (oworld [] []) [.newCtx, .pyOpen 0 [] []] = .ok w ∧ w.held = [1, 0] ∧
    ∃ s, pyDbInit 0 1 [] [] w.state = .ok (true, s) ∧
      ∃ w', orun ⟨s, w.held⟩ [.drop .pyDb 1, .drop .ctx 0] = .ok w' ∧ w'.held = [] ∧ Alive w'.state 4 := by
  have h : ends (oworld [] []) [.newCtx, .pyOpen 0 [] []] (fun w => decide (w.held = [1, 0] ∧
      (match pyDbInit 0 1 [] [] w.state with
        | .ok (ok, s) => ok && ends ⟨s, w.held⟩ [.drop .pyDb 1, .drop .ctx 0]
            (fun w => decide (w.held = [] ∧ Alive w.state 4))
        | .error _ => false) = true)) = true := by decide +kernel
  obtain ⟨w, hr, hh, h⟩ := of_ends h
  refine ⟨w, hr, hh, ?_⟩
  cases hi : pyDbInit 0 1 [] [] w.state with
  | error f => rw [hi] at h; cases h
  | ok v =>
    obtain ⟨ok, s⟩ := v
    rw [hi] at h
    simp only [Bool.and_eq_true] at h
    refine ⟨s, by rw [h.1], of_ends h.2⟩

end Loc.Props
