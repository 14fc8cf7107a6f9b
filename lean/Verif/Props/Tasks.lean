import Verif.Lemmas.Tasks
/-
C88: tasks never share a connection to the database, and all of them are run.
-/
namespace Loc.Props
open Loc Loc.Spec

/-- In every execution of the tasks that fetch `n` geofeeds, in whatever order and with whatever result the downloads end: a task
    that needs a connection gets one; no two tasks have the same one and no task has two; at most 32 downloads run at the same time,
    each with a connection of its own, and at most 34 connections are in use; the connection of the main task is the one it began
    with.  The execution ends after at most `12 * n` steps. -/
theorem geofeed_tasks {n k : Nat} {s : Tasks} (h : AfterSteps n k s) :
    ¬ Happens s none ∧ k ≤ 12 * n ∧ s.running.length ≤ 32 ∧ s.held.length ≤ 34 ∧
    (s.held.map (·.1)).Nodup ∧ (s.held.map (·.2)).Nodup ∧ (none, 0) ∈ s.held ∧ ∀ i ∈ s.running, ∃ c, (some i, c) ∈ s.held := by
  obtain ⟨⟨ha, hb⟩, hw⟩ := afterSteps_inv h
  refine ⟨fun hn => ?_, by omega, ha.runs, ha.few, ?_, (List.nodup_append.mp ha.vals).1, ha.main, fun i hi => ?_⟩
  · obtain ⟨t, ht, -⟩ := happens_inv ⟨ha, hb⟩ hn
    cases ht
  · rw [ha.keys.nodup_iff, List.nodup_cons]
    exact ⟨by simp, ha.nodup.map (fun a b e => Option.some.inj e)⟩
  · have := (mem_held ha).mpr (List.mem_append_left _ hi)
    obtain ⟨⟨x, c⟩, he, hx⟩ := List.mem_map.mp this
    exact ⟨c, by rw [← hx]; exact he⟩

/-- A connection stays with its task until the task has ended: its transaction is not used by others. -/
theorem geofeed_connection_kept {n k : Nat} {s t : Tasks} (h : AfterSteps n k s) (ht : Happens s (some t)) {x : Option Nat} {c : Nat}
    (hx : (x, c) ∈ s.held) : (x, c) ∈ t.held ∨ ∃ i bad, x = some i ∧ (i, bad) ∈ t.over := by
  obtain ⟨t', e, -, -, hk⟩ := happens_inv (afterSteps_inv h).1 ht
  cases e
  exact hk _ hx

/-- When nothing is left to be done, all connections but that of the main task have been given back; every geofeed was fetched
    exactly once, unless one of the tasks failed; and something can always happen before. -/
theorem geofeed_tasks_end {n k : Nat} {s : Tasks} (h : AfterSteps n k s) :
    (s.queue = [] → s.running = [] → s.held = [(none, 0)] ∧ ((∀ i, (i, true) ∉ s.over) → (s.over.map (·.1)).Perm (List.range n))) ∧
    (¬ (s.queue = [] ∧ s.running = []) → ∃ t, Happens s (some t)) := by
  obtain ⟨⟨ha, hb⟩, -⟩ := afterSteps_inv h
  refine ⟨fun hq hr => ⟨?_, fun hbad => ?_⟩, fun hne => ?_⟩
  · have hbz : busyTasks s = [] := by
      unfold busyTasks
      rw [hq, hr]
      rfl
    have hl := ha.keys.length_eq
    rw [hbz] at hl
    have hm := ha.main
    match hs : s.held with
    | [] => rw [hs] at hm; cases hm
    | [x] =>
      rw [hs, List.mem_singleton] at hm
      rw [hm]
    | x :: y :: l =>
      rw [hs] at hl
      simp at hl
  · have hab : s.aborting = false := by
      cases hab : s.aborting with
      | false => rfl
      | true =>
        obtain ⟨i, hi⟩ := ha.bad.mp hab
        exact absurd hi (hbad i)
    have hb := hb hab
    have hc := hb.count
    rw [hq, hr] at hc
    have hw := hb.full (by simp at hc; omega)
    have hall := hb.all
    unfold busyTasks comers at hall
    rw [hq, hr, hw] at hall
    simpa using hall
  · by_cases hq : s.queue = []
    · obtain ⟨i, hi⟩ := List.exists_mem_of_ne_nil _ (fun hr => hne ⟨hq, hr⟩)
      exact ⟨_, .download hi false⟩
    · obtain ⟨c, q, hcq⟩ := List.exists_cons_of_ne_nil hq
      have := Happens.run (s := s) hcq
      obtain ⟨t, e, -⟩ := happens_inv ⟨ha, hb⟩ this
      rw [e] at this
      exact ⟨t, this⟩

/-! ### Samples -/

/-- A run of the program: `none` runs the next callback, `some i` ends the download of task `i` well. -/
def playTasks : List (Option Nat) → Tasks → Option Tasks
  | [], s => some s
  | none :: l, s =>
    match s.queue with
    | [] => none
    | c :: q => (runCallback { s with queue := q } c).bind (playTasks l)
  | some i :: l, s =>
    if i ∈ s.running then playTasks l { s with running := s.running.erase i, queue := s.queue ++ [.resume i false] } else none

theorem playTasks_after {n : Nat} : ∀ {l : List (Option Nat)} {k : Nat} {s t : Tasks}, AfterSteps n k s → playTasks l s = some t → AfterSteps n (k + l.length) t
  | [], _, _, _, h, e => by cases e; exact h
  | none :: l, k, s, t, h, e => by
    unfold playTasks at e
    cases hq : s.queue with
    | nil => rw [hq] at e; cases e
    | cons c q =>
      rw [hq] at e
      simp only at e
      have hr := Happens.run (s := s) hq
      cases hc : runCallback { s with queue := q } c with
      | none => rw [hc] at e; cases e
      | some u =>
        rw [hc] at e hr
        have := playTasks_after (.step h hr) e
        simpa [Nat.add_assoc, Nat.add_comm 1] using this
  | some i :: l, k, s, t, h, e => by
    unfold playTasks at e
    by_cases hi : i ∈ s.running
    · rw [if_pos hi] at e
      have := playTasks_after (.step h (.download hi false)) e
      simpa [Nat.add_assoc, Nat.add_comm 1] using this
    · rw [if_neg hi] at e
      cases e

/-- 33 geofeeds: all tasks start, the last one has to wait; the first download ends, and the last task starts its own before
    the first one has given back its connection: then 34 connections are in use, so the bound is exact. -/
example : ∃ k s, AfterSteps 33 k s ∧ s.held.length = 34 ∧ s.running.length = 32 ∧ 32 ∈ s.running := by
  have h : ((playTasks (List.replicate 33 none ++ [some 0, none, none]) (tasksNew 33)).map fun s =>
      decide (s.held.length = 34 ∧ s.running.length = 32 ∧ 32 ∈ s.running)) = some true := by decide +kernel
  cases hf : playTasks (List.replicate 33 none ++ [some 0, none, none]) (tasksNew 33) with
  | none => rw [hf] at h; cases h
  | some s =>
    rw [hf] at h
    simp only [Option.map_some, Option.some.injEq, decide_eq_true_eq] at h
    exact ⟨_, s, playTasks_after .init hf, h⟩

/-- Two geofeeds; the downloads end in the other order, and both have been fetched. -/
example : ∃ k s, AfterSteps 2 k s ∧ s.queue = [] ∧ s.running = [] ∧ s.over = [(1, false), (0, false)] ∧ s.held = [(none, 0)] := by
  have h : ((playTasks [none, none, some 1, none, none, some 0, none, none] (tasksNew 2)).map fun s =>
      decide (s.queue = [] ∧ s.running = [] ∧ s.over = [(1, false), (0, false)] ∧ s.held = [(none, 0)])) = some true := by decide +kernel
  cases hf : playTasks [none, none, some 1, none, none, some 0, none, none] (tasksNew 2) with
  | none => rw [hf] at h; cases h
  | some s =>
    rw [hf] at h
    simp only [Option.map_some, Option.some.injEq, decide_eq_true_eq] at h
    exact ⟨_, s, playTasks_after .init hf, h⟩

end Loc.Props
