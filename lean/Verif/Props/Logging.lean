import Verif.Lemmas.Logging
/-
C81: Which messages reach which callback.  C82: Dumps of any data stay within their arrays and show all bytes.
-/
namespace Loc.Props
open Loc Loc.Spec

/-! ## C81 -/

/-- The level that the environment sets: the number, if it fits into an `int`, or the one of the name.  Partial: of other values
    nothing is said here, see `level_unknown` and `level_violated`. -/
theorem level_exact_partial (s : Bytes) :
    (∀ neg ds, NumberText s neg ds → valueOf ds < 2 ^ 31 → logPriority s = if neg then -(valueOf ds : Int) else valueOf ds) ∧
    (∀ level, LevelName s level → logPriority s = level) := by
  refine ⟨fun neg ds h hn => ?_, fun level h => ?_⟩
  · obtain ⟨rest, e, hr⟩ := strtol_number h
    unfold logPriority
    rw [e]
    simp only
    rw [rest_ok hr, if_pos rfl]
    cases neg with
    | true =>
      simp only [if_true]
      rw [show max (-2 ^ 63) (min (2 ^ 63 - 1) (-(valueOf ds : Int))) = -(valueOf ds : Int) by omega]
      exact toInt32_small (by omega) (by omega)
    | false =>
      simp only [Bool.false_eq_true, if_false]
      rw [show max (-2 ^ 63) (min (2 ^ 63 - 1) (valueOf ds : Int)) = (valueOf ds : Int) by omega]
      exact toInt32_small (by omega) (by omega)
  · rcases h with ⟨⟨t, rfl⟩, rfl⟩ | ⟨⟨t, rfl⟩, rfl⟩ | ⟨⟨t, rfl⟩, rfl⟩
    · rfl
    · rfl
    · rfl

/-- "7", " +6 x", "error", "debugging" -/
example : NumberText [55] false [55] ∧ NumberText [32, 43, 54, 32, 120] false [54] ∧ LevelName [101, 114, 114, 111, 114] 3 ∧
    LevelName [100, 101, 98, 117, 103, 103, 105, 110, 103] 7 :=
  ⟨⟨[], [], [], rfl, by decide, .inl rfl, by decide, by decide, by decide⟩,
   ⟨[32], [43], [32, 120], rfl, by decide, .inr rfl, by decide, by decide, by decide⟩,
   .inl ⟨⟨_, rfl⟩, rfl⟩, .inr (.inr ⟨⟨_, rfl⟩, rfl⟩)⟩

/-- Any other value turns all messages off, also those about errors. -/
theorem level_unknown {s : Bytes} (h1 : ¬ ∃ neg ds, NumberText s neg ds) (h2 : ¬ ∃ level, LevelName s level) (debug : Bool)
    (prio : Int) (hp : 3 ≤ prio) :
    (logNew debug (some s)).1.priority = 0 ∧ logMessage debug (logNew debug (some s)).1 prio = [] := by
  have h0 : logPriority s = 0 := by
    unfold logPriority
    cases e : strtol10 s with
    | mk v rest =>
    simp only
    split
    · rename_i hr
      rcases strtol_found e with ⟨rfl, -⟩ | h
      · decide
      · exfalso
        apply h1
        apply h
        intro c hc
        cases rest with
        | nil => cases hc
        | cons x r =>
          cases hc
          have hr : (some (cSpace c) == some true) = true := hr
          exact Option.some.inj (eq_of_beq hr)
    · split
      · rename_i hp
        exact absurd ⟨3, .inl ⟨List.isPrefixOf_iff_prefix.mp hp, rfl⟩⟩ h2
      · split
        · rename_i hp
          exact absurd ⟨6, .inr (.inl ⟨List.isPrefixOf_iff_prefix.mp hp, rfl⟩)⟩ h2
        · split
          · rename_i hp
            exact absurd ⟨7, .inr (.inr ⟨List.isPrefixOf_iff_prefix.mp hp, rfl⟩)⟩ h2
          · rfl
  have h3 : (logNew debug (some s)).1.priority = 0 := h0
  refine ⟨h3, ?_⟩
  unfold logMessage
  rw [h3]
  split
  · rfl
  · rw [if_neg (by omega)]

/-- Each message reaches the callback that was set last, if its priority does not exceed the one that was set last; before, those
    of the environment, and errors without it, go to the standard error output.  `loc_set_log_fn` changes nothing. -/
theorem messages_exact (debug : Bool) (env : Option Bytes) (ops : List LogOp) (i : Nat) (prio : Int) (h : ops[i]? = some (.message prio)) :
    ∃ out, (logRun debug (logNew debug env).1 ops)[i]? = some out ∧
      (((prio = 7 → debug = true) ∧ prio ≤ lastPriority (match env with | none => 3 | some s => logPriority s) (ops.take i) →
        out = [(lastCallback (ops.take i), prio)]) ∧
      (¬ ((prio = 7 → debug = true) ∧ prio ≤ lastPriority (match env with | none => 3 | some s => logPriority s) (ops.take i)) → out = [])) := by
  have h1 : (logNew debug env).1 = ⟨match env with | none => 3 | some s => logPriority s, (0, 0)⟩ := by cases env <;> rfl
  refine ⟨_, logRun_get debug (logNew debug env).1 ops i _ h, ?_, ?_⟩
  · intro hc
    rw [h1]
    show logMessage debug _ prio = _
    unfold logMessage
    rw [if_neg (by
      intro h2
      have := hc.1 h2.1
      rw [h2.2] at this
      cases this)]
    rw [if_pos (show _ ≥ prio from hc.2)]
    rfl
  · intro hc
    rw [h1]
    show logMessage debug _ prio = _
    unfold logMessage
    by_cases h2 : prio = 7 ∧ debug = false
    · rw [if_pos h2]
    · rw [if_neg h2, if_neg]
      intro h3
      apply hc
      refine ⟨fun h4 => ?_, h3⟩
      cases debug with
      | true => rfl
      | false => exact absurd ⟨h4, rfl⟩ h2

/-- Without the environment an error is shown and an information is not; after setting level and callback, both are. -/
example : logRun false (logNew false none).1 [.message 3, .message 6, .priority 6, .callback (1, 2), .message 6, .message 7] =
    [[((0, 0), 3)], [], [], [], [((1, 2), 6)], []] := by decide

/-- Values for which errors are not shown although more than errors seem to be asked for: the empty one, "warning", " err" and
    "4294967295"; and the function to set a callback without data sets none. -/
theorem level_violated :
    (∀ s ∈ ([[], [119, 97, 114, 110, 105, 110, 103], [32, 101, 114, 114], [52, 50, 57, 52, 57, 54, 55, 50, 57, 53]] : List Bytes),
      logMessage true (logNew true (some s)).1 3 = []) ∧
    logRun false (logNew false none).1 [.fn, .message 3] = [[], [((0, 0), 3)]] := by decide

/-! ## C82 -/

/-- Any data below 4 GiB is dumped without leaving the arrays, whatever was in them before, in lines of 16 bytes. -/
theorem dump_safe {hex ascii : Bytes} (h1 : hex.length = 16 * 3 + 6) (h2 : ascii.length = 17) {data : Bytes} (hl : data.length < 2 ^ 32) :
    ∃ lines, hexdump hex ascii data = .ok lines ∧ lines.length = (data.length + 15) / 16 := by
  by_cases hne : data = []
  · rw [hne]
    exact ⟨[], rfl, rfl⟩
  · exact ⟨_, dump_all h1 h2 hne hl, by rw [List.length_map, List.length_range]⟩

/-- Up to 64 KiB, which is the size of the buffers that are dumped, each line shows its offset, its bytes and its characters. -/
theorem dump_exact {hex ascii : Bytes} (h1 : hex.length = 16 * 3 + 6) (h2 : ascii.length = 17) {data : Bytes} (hl : data.length ≤ 65536) :
    ∃ lines, hexdump hex ascii data = .ok lines ∧ lines.length = (data.length + 15) / 16 ∧
      ∀ (j : Nat) (line : Bytes × Bytes), lines[j]? = some line → DumpLine (16 * j) ((data.drop (16 * j)).take 16) line := by
  by_cases hne : data = []
  · rw [hne]
    exact ⟨[], rfl, rfl, fun j line h => by cases h⟩
  · refine ⟨_, dump_all h1 h2 hne (by omega), by rw [List.length_map, List.length_range], ?_⟩
    intro j line h
    rw [List.getElem?_map] at h
    by_cases hj : j < (data.length + 15) / 16
    · rw [List.getElem?_range hj] at h
      cases h
      exact line_spec (by omega) _
    · rw [List.getElem?_eq_none (by rw [List.length_range]; omega)] at h
      cases h

/-- "LOCDBXX" and a version -/
example : hexdump (List.replicate 54 255) (List.replicate 17 255) [76, 79, 67, 68, 66, 88, 88, 1] =
    .ok [([48, 48, 48, 48, 32, 32, 52, 99, 32, 52, 102, 32, 52, 51, 32, 52, 52, 32, 52, 50, 32, 53, 56, 32, 53, 56, 32, 48, 49] ++
      List.replicate 24 32, [76, 79, 67, 68, 66, 88, 88, 46])] := by rfl

end Loc.Props
