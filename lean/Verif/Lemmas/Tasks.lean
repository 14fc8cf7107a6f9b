import Verif.Spec.Tasks
import Mathlib.Data.List.Perm.Basic
import Mathlib.Data.List.Nodup
/-
The invariant of the tasks of `update-geofeeds`.
-/
namespace Loc
open Spec

/-- The task that holds a connection while the callback is in the queue -/
def Callback.holder : Callback → Option Nat
  | .resume i _ => some i
  | .ended i _ => some i
  | _ => none

/-- The task that has none yet -/
def Callback.comer : Callback → Option Nat
  | .start i => some i
  | .wake i => some i
  | _ => none

def Callback.isWake : Callback → Bool
  | .wake _ => true
  | _ => false

def Callback.isResume : Callback → Bool
  | .resume _ _ => true
  | _ => false

def Callback.isEnded : Callback → Bool
  | .ended _ _ => true
  | _ => false

def Callback.isStart : Callback → Bool
  | .start _ => true
  | _ => false

def Callback.weight : Callback → Nat
  | .start _ => 6
  | .wake _ => 4
  | .resume _ _ => 2
  | .ended _ _ => 1

def busyTasks (s : Tasks) : List Nat := s.running ++ s.queue.filterMap Callback.holder

def comers (s : Tasks) : List Nat := s.waiting ++ s.queue.filterMap Callback.comer

/-- Every `wake` is followed by the `ended` of the task that gave up its place. -/
def Shape : List Callback → Prop
  | [] => True
  | .wake _ :: q => (∃ i b c, q = .ended i b :: c) ∧ Shape q
  | _ :: q => Shape q

/-- First steps come first, and nothing has been released before them. -/
def Early : List Callback → Prop
  | [] => True
  | .start _ :: q => (∀ c ∈ q, c.isWake = false ∧ c.isEnded = false) ∧ Early q
  | _ :: q => ∀ c ∈ q, c.isStart = false

def taskWeight (s : Tasks) : Nat :=
  2 * ((s.queue.map Callback.weight).sum + 5 * s.waiting.length + 3 * s.running.length) + s.idle.length

/-- Holds always -/
structure AInv (s : Tasks) : Prop where
  keys : (s.held.map (·.1)).Perm (none :: (busyTasks s).map some)
  nodup : (busyTasks s).Nodup
  vals : (s.held.map (·.2) ++ s.idle).Nodup
  below : ∀ c ∈ s.held.map (·.2) ++ s.idle, c < s.opened
  main : (none, 0) ∈ s.held
  few : s.held.length ≤ 34
  runs : s.running.length ≤ 32
  bad : s.aborting = true ↔ ∃ i, (i, true) ∈ s.over

/-- Holds until a task fails -/
structure BInv (n : Nat) (s : Tasks) : Prop where
  all : (s.over.map (·.1) ++ (busyTasks s ++ comers s)).Perm (List.range n)
  count : s.places + s.queue.countP Callback.isWake + s.running.length + s.queue.countP Callback.isResume = 32
  full : 0 < s.places → s.waiting = []
  shape : Shape s.queue
  early : Early s.queue
  tight : s.queue.countP Callback.isEnded ≤ s.queue.countP Callback.isWake + s.places ∨
    ∃ i b q, s.queue = .ended i b :: q ∧ q.countP Callback.isEnded ≤ q.countP Callback.isWake + s.places

theorem shape_append : ∀ {q r : List Callback}, Shape q → Shape r → Shape (q ++ r)
  | [], _, _, h => h
  | .wake _ :: q, _, h, h' => by
    obtain ⟨⟨i, b, c, rfl⟩, h2⟩ := h
    exact ⟨⟨i, b, _, rfl⟩, shape_append h2 h'⟩
  | .start _ :: q, _, h, h' => shape_append (q := q) h h'
  | .resume _ _ :: q, _, h, h' => shape_append (q := q) h h'
  | .ended _ _ :: q, _, h, h' => shape_append (q := q) h h'

theorem shape_tail {c : Callback} {q : List Callback} (h : Shape (c :: q)) : Shape q := by
  cases c with
  | wake i => exact h.2
  | _ => exact h

theorem early_of_none : ∀ {q : List Callback}, (∀ c ∈ q, c.isStart = false) → Early q
  | [], _ => trivial
  | .start i :: q, h => by simpa [Callback.isStart] using h (.start i) (by simp)
  | .wake _ :: q, h => fun c hc => h c (by simp [hc])
  | .resume _ _ :: q, h => fun c hc => h c (by simp [hc])
  | .ended _ _ :: q, h => fun c hc => h c (by simp [hc])

theorem early_tail {c : Callback} {q : List Callback} (h : Early (c :: q)) : Early q := by
  cases c with
  | start i => exact h.2
  | _ => exact early_of_none h

theorem early_append {i : Nat} {b : Bool} : ∀ {q : List Callback}, Early q → Early (q ++ [.resume i b])
  | [], _ => fun c hc => by cases hc
  | .start _ :: q, h => by
    refine ⟨fun c hc => ?_, early_append h.2⟩
    rcases List.mem_append.mp hc with hc | hc
    · exact h.1 c hc
    · rw [List.mem_singleton] at hc
      subst hc
      exact ⟨rfl, rfl⟩
  | .wake _ :: q, h => fun c hc => by
    rcases List.mem_append.mp hc with hc | hc
    · exact h c hc
    · rw [List.mem_singleton] at hc
      subst hc
      rfl
  | .resume _ _ :: q, h => fun c hc => by
    rcases List.mem_append.mp hc with hc | hc
    · exact h c hc
    · rw [List.mem_singleton] at hc
      subst hc
      rfl
  | .ended _ _ :: q, h => fun c hc => by
    rcases List.mem_append.mp hc with hc | hc
    · exact h c hc
    · rw [List.mem_singleton] at hc
      subst hc
      rfl

theorem holder_length (q : List Callback) :
    (q.filterMap Callback.holder).length = q.countP Callback.isResume + q.countP Callback.isEnded := by
  induction q with
  | nil => rfl
  | cons c q ih =>
    cases c <;> simp only [List.filterMap_cons, List.countP_cons, Callback.holder, Callback.isResume, Callback.isEnded, List.length_cons, ih, if_true, if_false, Bool.false_eq_true] <;> omega

theorem held_length {s : Tasks} (h : AInv s) : s.held.length = 1 + s.running.length + s.queue.countP Callback.isResume + s.queue.countP Callback.isEnded := by
  have := h.keys.length_eq
  simp only [List.length_map, List.length_cons, busyTasks, List.length_append, holder_length] at this
  omega

theorem mem_held {s : Tasks} (h : AInv s) {i : Nat} : some i ∈ s.held.map (·.1) ↔ i ∈ busyTasks s := by
  rw [h.keys.mem_iff]
  simp

/-- Getting a connection and starting the download. -/
theorem enter_inv {s : Tasks} (h : AInv s) {i : Nat} (hi : i ∉ busyTasks s) (hf : s.held.length ≤ 33) (hr : s.running.length < 32) :
    ∃ held idle opened, enterTask s i = some { s with held := held, idle := idle, opened := opened, running := s.running ++ [i] } ∧
      AInv { s with held := held, idle := idle, opened := opened, running := s.running ++ [i] } ∧ idle.length ≤ s.idle.length ∧
      ∀ e ∈ s.held, e ∈ held := by
  have hn : some i ∉ s.held.map (·.1) := fun h' => hi ((mem_held h).mp h')
  have kp : ∀ c : Nat, ((s.held ++ [(some i, c)]).map (·.1)).Perm
      (none :: ((s.running ++ [i]) ++ s.queue.filterMap Callback.holder).map some) := by
    intro c
    have h1 : ((s.running ++ [i]) ++ s.queue.filterMap Callback.holder).Perm (busyTasks s ++ [i]) := by
      unfold busyTasks
      simp only [List.append_assoc]
      exact List.Perm.append_left _ List.perm_append_comm
    have h2 := (h1.map some).cons none
    refine List.Perm.trans ?_ h2.symm
    simp only [List.map_append, List.map_cons, List.map_nil]
    exact List.Perm.append_right [some i] h.keys
  have nd : ((s.running ++ [i]) ++ s.queue.filterMap Callback.holder).Nodup := by
    have h1 : ((s.running ++ [i]) ++ s.queue.filterMap Callback.holder).Perm (i :: busyTasks s) := by
      unfold busyTasks
      simp only [List.append_assoc, List.singleton_append]
      exact List.perm_middle
    exact h1.nodup_iff.mpr (List.nodup_cons.mpr ⟨hi, h.nodup⟩)
  unfold enterTask getConnection
  rw [if_neg hn]
  cases hidle : s.idle with
  | cons c l =>
    refine ⟨_, l, s.opened, rfl, ⟨kp c, nd, ?_, ?_, ?_, ?_, ?_, h.bad⟩, by simp, fun e he => List.mem_append_left _ he⟩
    · have := h.vals
      rw [hidle] at this
      simpa using this
    · have := h.below
      rw [hidle] at this
      simpa using this
    · exact List.mem_append_left _ h.main
    · simp only [List.length_append, List.length_singleton]; omega
    · simp only [List.length_append, List.length_singleton]; omega
  | nil =>
    simp only
    rw [if_pos (by omega)]
    refine ⟨_, [], s.opened + 1, ?_, ⟨kp s.opened, nd, ?_, ?_, ?_, ?_, ?_, h.bad⟩, by simp, fun e he => List.mem_append_left _ he⟩
    · simp only [Option.map_some]
    · have h1 := h.vals
      have h2 := h.below
      rw [hidle, List.append_nil] at h1 h2
      simp only [List.map_append, List.map_cons, List.map_nil, List.append_nil]
      rw [List.nodup_append]
      refine ⟨h1, by simp, ?_⟩
      intro a ha b hb hab
      rw [List.mem_singleton] at hb
      have := h2 a ha
      omega
    · intro c hc
      have h2 := h.below
      rw [hidle, List.append_nil] at h2
      simp only [List.map_append, List.map_cons, List.map_nil, List.append_nil, List.mem_append, List.mem_singleton] at hc
      rcases hc with hc | rfl
      · have := h2 c hc
        show c < s.opened + 1
        omega
      · exact Nat.lt_succ_self _
    · exact List.mem_append_left _ h.main
    · simp only [List.length_append, List.length_singleton]; omega
    · simp only [List.length_append, List.length_singleton]; omega

/-- Giving back a connection. -/
theorem release_inv {s : Tasks} {i : Nat} {b : Bool} {q : List Callback} (h : AInv s) (hq : s.queue = .ended i b :: q) :
    let t := releaseConnection { s with queue := q, over := s.over ++ [(i, b)] } (some i)
    (t.held.map (·.1)).Perm (none :: (busyTasks t).map some) ∧ (busyTasks t).Nodup ∧ (t.held.map (·.2) ++ t.idle).Nodup ∧
    (∀ c ∈ t.held.map (·.2) ++ t.idle, c < t.opened) ∧ (none, 0) ∈ t.held ∧ t.held.length ≤ 34 ∧ t.idle.length ≤ s.idle.length + 1 ∧
    ∀ e ∈ s.held, e ∈ t.held ∨ e.1 = some i := by
  intro t
  have hb : busyTasks s = s.running ++ i :: q.filterMap Callback.holder := by
    unfold busyTasks
    rw [hq]
    rfl
  have hbt : busyTasks t = s.running ++ q.filterMap Callback.holder := rfl
  have hp : (busyTasks s).Perm (i :: busyTasks t) := by
    rw [hb, hbt]
    exact List.perm_middle
  have hnd := hp.nodup_iff.mp h.nodup
  rw [List.nodup_cons] at hnd
  have hvp : (t.held.map (·.2) ++ t.idle).Perm (s.held.map (·.2) ++ s.idle) := by
    have h1 : (s.held.filter (·.1 ≠ some i) ++ s.held.filter (·.1 = some i)).Perm s.held := by
      have := List.filter_append_perm (fun e : Option Nat × Nat => decide (e.1 ≠ some i)) s.held
      have e1 : (fun x : Option Nat × Nat => !decide (x.1 ≠ some i)) = fun x => decide (x.1 = some i) := by
        funext x
        by_cases hx : x.1 = some i <;> simp [hx]
      rw [e1] at this
      exact this
    have h2 := h1.map (·.2)
    rw [List.map_append] at h2
    show ((s.held.filter (·.1 ≠ some i)).map (·.2) ++ (s.idle ++ (s.held.filter (·.1 = some i)).map (·.2))).Perm _
    refine List.Perm.trans (List.Perm.append_left _ List.perm_append_comm) ?_
    rw [← List.append_assoc]
    exact List.Perm.append_right _ h2
  refine ⟨?_, hnd.2, hvp.nodup_iff.mpr h.vals, fun c hc => h.below c (hvp.mem_iff.mp hc), ?_, ?_, ?_, ?_⟩
  · have h1 : (t.held.map (·.1)) = (s.held.map (·.1)).filter (fun k => decide (k ≠ some i)) := by
      show (s.held.filter (·.1 ≠ some i)).map (·.1) = _
      rw [List.filter_map]
      rfl
    rw [h1]
    have h2 : (none :: (busyTasks t).map some) = (none :: (busyTasks t).map some).filter (fun k => decide (k ≠ some i)) := by
      symm
      rw [List.filter_eq_self]
      intro k hk
      simp only [List.mem_cons, List.mem_map] at hk
      rcases hk with rfl | ⟨j, hj, rfl⟩
      · simp
      · have : j ≠ i := fun e => hnd.1 (e ▸ hj)
        simpa using this
    rw [h2]
    have h3 := (h.keys.trans ((hp.map some).cons none)).filter (fun k => decide (k ≠ some i))
    refine h3.trans (List.Perm.of_eq ?_)
    simp
  · exact List.mem_filter.mpr ⟨h.main, by simp⟩
  · exact Nat.le_trans (List.length_filter_le _ _) h.few
  · have h1 : (s.held.filter (·.1 = some i)).length ≤ 1 := by
      have h2 : ((s.held.filter (·.1 = some i)).map (·.1)).Nodup := by
        have h3 : (s.held.map (·.1)).Nodup := by
          rw [h.keys.nodup_iff, List.nodup_cons]
          exact ⟨by simp, h.nodup.map (fun a b e => Option.some.inj e)⟩
        exact h3.sublist (List.Sublist.map _ List.filter_sublist)
      match hm : s.held.filter (·.1 = some i) with
      | [] => rw [hm]; simp
      | [_] => rw [hm]; simp
      | x :: y :: l =>
        rw [hm] at h2
        have hx : x ∈ s.held.filter (·.1 = some i) := by rw [hm]; simp
        have hy : y ∈ s.held.filter (·.1 = some i) := by rw [hm]; simp
        have hx := of_decide_eq_true (List.mem_filter.mp hx).2
        have hy := of_decide_eq_true (List.mem_filter.mp hy).2
        simp [hx, hy] at h2
    show (s.idle ++ (s.held.filter (·.1 = some i)).map (·.2)).length ≤ _
    rw [List.length_append, List.length_map]
    omega
  · intro e he
    by_cases hk : e.1 = some i
    · exact .inr hk
    · exact .inl (List.mem_filter.mpr ⟨he, by simpa using hk⟩)

def TInv (n : Nat) (s : Tasks) : Prop := AInv s ∧ (s.aborting = false → BInv n s)

/-- The connection of a task stays the same until it has ended. -/
def KeepsConn (s t : Tasks) : Prop := ∀ e ∈ s.held, e ∈ t.held ∨ ∃ i b, e.1 = some i ∧ (i, b) ∈ t.over

theorem wake_head {s : Tasks} {n i : Nat} {q : List Callback} (hb : BInv n s) (hq : s.queue = .wake i :: q) :
    s.queue.countP Callback.isEnded ≤ s.queue.countP Callback.isWake + s.places := by
  rcases hb.tight with h | ⟨j, b, r, h, -⟩
  · exact h
  · rw [hq] at h
    cases h

theorem run_start {n : Nat} {s : Tasks} (h : TInv n s) {i : Nat} {q : List Callback} (hq : s.queue = .start i :: q) :
    ∃ t, runCallback { s with queue := q } (.start i) = some t ∧ TInv n t ∧ taskWeight t < taskWeight s ∧ KeepsConn s t := by
  obtain ⟨ha, hb⟩ := h
  have ha' : AInv { s with queue := q } := by
    have e : busyTasks { s with queue := q } = busyTasks s := by
      unfold busyTasks
      rw [hq]
      rfl
    exact ⟨by rw [e]; exact ha.keys, by rw [e]; exact ha.nodup, ha.vals, ha.below, ha.main, ha.few, ha.runs, ha.bad⟩
  unfold runCallback
  simp only
  by_cases hab : s.aborting = true
  · rw [if_pos hab]
    refine ⟨_, rfl, ⟨ha', fun h => ?_⟩, ?_, fun e he => .inl he⟩
    · have h : s.aborting = false := h
      rw [hab] at h
      cases h
    · unfold taskWeight
      rw [hq]
      simp only [List.map_cons, List.sum_cons, Callback.weight]
      omega
  · rw [if_neg hab]
    have hab : s.aborting = false := by simpa using hab
    have hb := hb hab
    have hsoft := hb.early
    rw [hq] at hsoft
    obtain ⟨hs1, hs2⟩ := hsoft
    have hw0 : q.countP Callback.isWake = 0 := List.countP_eq_zero.mpr fun c hc => by simp [(hs1 c hc).1]
    have he0 : q.countP Callback.isEnded = 0 := List.countP_eq_zero.mpr fun c hc => by simp [(hs1 c hc).2]
    have hc := hb.count
    rw [hq] at hc
    simp only [List.countP_cons, Callback.isWake, Callback.isResume] at hc
    have hl := held_length ha'
    simp only [he0] at hl
    have hall := hb.all
    have hcom : comers s = s.waiting ++ i :: q.filterMap Callback.comer := by
      unfold comers
      rw [hq]
      rfl
    have hbusy : busyTasks s = s.running ++ q.filterMap Callback.holder := by
      unfold busyTasks
      rw [hq]
      rfl
    rw [hcom, hbusy] at hall
    have hsh := hb.shape
    rw [hq] at hsh
    by_cases hp : s.places > 0 ∧ s.waiting = []
    · rw [if_pos hp]
      obtain ⟨hp1, hp2⟩ := hp
      have ha2 : AInv { s with queue := q, places := s.places - 1 } :=
        ⟨ha'.keys, ha'.nodup, ha'.vals, ha'.below, ha'.main, ha'.few, ha'.runs, ha'.bad⟩
      have hni : i ∉ busyTasks { s with queue := q, places := s.places - 1 } := by
        intro hm
        have hnd := hall.nodup_iff.mpr List.nodup_range
        have h1 := (List.nodup_append.mp hnd).2.1
        have h2 := (List.nodup_append.mp h1).2.2
        exact h2 i hm i (by simp) rfl
      obtain ⟨held, idle, opened, e1, e2, e3, e4⟩ := enter_inv ha2 hni (by simp only; omega) (by simp only; omega)
      refine ⟨_, e1, ⟨e2, fun _ => ⟨?_, ?_, ?_, hsh, hs2, ?_⟩⟩, ?_, fun e he => .inl (e4 e he)⟩
      · refine List.Perm.trans ?_ hall
        refine List.Perm.append_left _ ?_
        show ((s.running ++ [i]) ++ q.filterMap Callback.holder ++ (s.waiting ++ q.filterMap Callback.comer)).Perm _
        rw [hp2]
        simp only [List.nil_append, List.append_assoc, List.singleton_append]
        refine List.Perm.append_left _ ?_
        exact List.perm_middle.symm
      · show s.places - 1 + q.countP Callback.isWake + (s.running ++ [i]).length + q.countP Callback.isResume = 32
        simp only [List.length_append, List.length_singleton]
        simp at hc
        omega
      · intro _
        exact hp2
      · left
        show q.countP Callback.isEnded ≤ _
        omega
      · unfold taskWeight
        rw [hq]
        simp only [List.map_cons, List.sum_cons, Callback.weight, List.length_append, List.length_singleton]
        simp only at e3
        omega
    · rw [if_neg hp]
      have hp0 : s.places = 0 := by
        rcases Nat.eq_zero_or_pos s.places with h | h
        · exact h
        · exact absurd ⟨h, hb.full h⟩ hp
      refine ⟨_, rfl, ⟨⟨ha'.keys, ha'.nodup, ha'.vals, ha'.below, ha'.main, ha'.few, ha'.runs, ha'.bad⟩, fun _ => ⟨?_, ?_, ?_, hsh, hs2, ?_⟩⟩, ?_, fun e he => .inl he⟩
      · refine List.Perm.trans ?_ hall
        refine List.Perm.append_left _ (List.Perm.append_left _ ?_)
        show (s.waiting ++ [i] ++ q.filterMap Callback.comer).Perm _
        simp
      · show s.places + q.countP Callback.isWake + s.running.length + q.countP Callback.isResume = 32
        simp at hc
        omega
      · intro h
        simp only at h
        omega
      · left
        show q.countP Callback.isEnded ≤ _
        omega
      · unfold taskWeight
        rw [hq]
        simp only [List.map_cons, List.sum_cons, Callback.weight, List.length_append, List.length_singleton]
        omega

theorem run_wake {n : Nat} {s : Tasks} (h : TInv n s) {i : Nat} {q : List Callback} (hq : s.queue = .wake i :: q) :
    ∃ t, runCallback { s with queue := q } (.wake i) = some t ∧ TInv n t ∧ taskWeight t < taskWeight s ∧ KeepsConn s t := by
  obtain ⟨ha, hb⟩ := h
  have ha' : AInv { s with queue := q } := by
    have e : busyTasks { s with queue := q } = busyTasks s := by
      unfold busyTasks
      rw [hq]
      rfl
    exact ⟨by rw [e]; exact ha.keys, by rw [e]; exact ha.nodup, ha.vals, ha.below, ha.main, ha.few, ha.runs, ha.bad⟩
  unfold runCallback
  simp only
  by_cases hab : s.aborting = true
  · rw [if_pos hab]
    refine ⟨_, rfl, ⟨ha', fun h => ?_⟩, ?_, fun e he => .inl he⟩
    · have h : s.aborting = false := h
      rw [hab] at h
      cases h
    · unfold taskWeight
      rw [hq]
      simp only [List.map_cons, List.sum_cons, Callback.weight]
      omega
  · rw [if_neg hab]
    have hab : s.aborting = false := by simpa using hab
    have hb := hb hab
    have ht := wake_head hb hq
    have hc := hb.count
    rw [hq] at hc ht
    simp only [List.countP_cons, Callback.isWake, Callback.isResume, Callback.isEnded, if_true, if_false, Bool.false_eq_true, Nat.add_zero] at hc ht
    have hl := held_length ha'
    simp only at hl
    have hall := hb.all
    have hcom : comers s = s.waiting ++ i :: q.filterMap Callback.comer := by
      unfold comers
      rw [hq]
      rfl
    have hbusy : busyTasks s = s.running ++ q.filterMap Callback.holder := by
      unfold busyTasks
      rw [hq]
      rfl
    rw [hcom, hbusy] at hall
    have hsh := hb.shape
    rw [hq] at hsh
    have hea := hb.early
    rw [hq] at hea
    have hni : i ∉ busyTasks { s with queue := q } := by
      intro hm
      have hnd := hall.nodup_iff.mpr List.nodup_range
      have h1 := (List.nodup_append.mp hnd).2.1
      have h2 := (List.nodup_append.mp h1).2.2
      exact h2 i hm i (by simp) rfl
    obtain ⟨held, idle, opened, e1, e2, e3, e4⟩ := enter_inv ha' hni (by simp only; omega) (by simp only; omega)
    refine ⟨_, e1, ⟨e2, fun _ => ⟨?_, ?_, hb.full, hsh.2, early_of_none hea, ?_⟩⟩, ?_, fun e he => .inl (e4 e he)⟩
    · refine List.Perm.trans ?_ hall
      refine List.Perm.append_left _ ?_
      show ((s.running ++ [i]) ++ q.filterMap Callback.holder ++ (s.waiting ++ q.filterMap Callback.comer)).Perm _
      simp only [List.append_assoc, List.singleton_append]
      refine List.Perm.append_left _ ?_
      refine List.Perm.trans ?_ (List.Perm.append_left _ List.perm_middle.symm)
      exact List.perm_middle.symm
    · show s.places + q.countP Callback.isWake + (s.running ++ [i]).length + q.countP Callback.isResume = 32
      simp only [List.length_append, List.length_singleton]
      omega
    · right
      obtain ⟨⟨j, b, c, hj⟩, -⟩ := hsh
      refine ⟨j, b, c, hj, ?_⟩
      rw [hj] at ht
      simp only [List.countP_cons, Callback.isWake, Callback.isEnded, if_true, if_false, Bool.false_eq_true, Nat.add_zero] at ht
      show _ ≤ _ + s.places
      omega
    · unfold taskWeight
      rw [hq]
      simp only [List.map_cons, List.sum_cons, Callback.weight, List.length_append, List.length_singleton]
      simp only at e3
      omega

theorem run_resume {n : Nat} {s : Tasks} (h : TInv n s) {i : Nat} {b : Bool} {q : List Callback} (hq : s.queue = .resume i b :: q) :
    ∃ t, runCallback { s with queue := q } (.resume i b) = some t ∧ TInv n t ∧ taskWeight t < taskWeight s ∧ KeepsConn s t := by
  obtain ⟨ha, hb⟩ := h
  have hbusy : busyTasks s = s.running ++ i :: q.filterMap Callback.holder := by
    unfold busyTasks
    rw [hq]
    rfl
  have key : ∀ t : Tasks, (busyTasks t).Perm (busyTasks s) → t.held = s.held → t.idle = s.idle → t.opened = s.opened → t.running = s.running →
      t.aborting = s.aborting → t.over = s.over → AInv t := by
    intro t h1 h2 h3 h4 h5 h6 h7
    refine ⟨?_, h1.nodup_iff.mpr ha.nodup, ?_, ?_, ?_, ?_, ?_, ?_⟩
    · rw [h2]; exact ha.keys.trans ((h1.symm.map some).cons none)
    · rw [h2, h3]; exact ha.vals
    · rw [h2, h3, h4]; exact ha.below
    · rw [h2]; exact ha.main
    · rw [h2]; exact ha.few
    · rw [h5]; exact ha.runs
    · rw [h6, h7]; exact ha.bad
  unfold runCallback releasePlace
  simp only
  cases hw : s.waiting with
  | nil =>
    refine ⟨_, rfl, ⟨key _ ?_ rfl rfl rfl rfl rfl rfl, fun hab => ?_⟩, ?_, fun e he => .inl he⟩
    · rw [hbusy]
      show (s.running ++ (q ++ [Callback.ended i b]).filterMap Callback.holder).Perm _
      rw [List.filterMap_append]
      refine List.Perm.append_left _ ?_
      exact List.perm_append_comm
    · have hb := hb hab
      have hc := hb.count
      have ht := hb.tight
      have hsh := hb.shape
      have hea := hb.early
      have hall := hb.all
      rw [hq] at hc ht hsh hea
      rw [hbusy] at hall
      have hcom : comers s = [] ++ q.filterMap Callback.comer := by
        unfold comers
        rw [hq, hw]
        rfl
      rw [hcom] at hall
      have ht' : q.countP Callback.isEnded ≤ q.countP Callback.isWake + s.places := by
        rcases ht with ht | ⟨_, _, _, ht, -⟩
        · simpa [List.countP_cons, Callback.isWake, Callback.isEnded] using ht
        · cases ht
      simp only [List.countP_cons, Callback.isWake, Callback.isResume, if_true, if_false, Bool.false_eq_true, Nat.add_zero] at hc
      refine ⟨?_, ?_, fun _ => rfl, shape_append (q := q) hsh trivial, ?_, .inl ?_⟩
      · refine List.Perm.trans ?_ hall
        refine List.Perm.append_left _ ?_
        show ((s.running ++ (q ++ [Callback.ended i b]).filterMap Callback.holder) ++ ([] ++ (q ++ [Callback.ended i b]).filterMap Callback.comer)).Perm _
        rw [List.filterMap_append, List.filterMap_append]
        refine List.Perm.append ?_ (List.Perm.of_eq ?_)
        · refine List.Perm.append_left _ ?_
          exact List.perm_append_comm
        · simp [Callback.comer]
      · show s.places + 1 + (q ++ [Callback.ended i b]).countP Callback.isWake + s.running.length + (q ++ [Callback.ended i b]).countP Callback.isResume = 32
        simp only [List.countP_append, List.countP_cons, List.countP_nil, Callback.isWake, Callback.isResume, if_false, Bool.false_eq_true]
        omega
      · refine early_of_none fun c hc => ?_
        rcases List.mem_append.mp hc with hc | hc
        · exact hea c hc
        · rw [List.mem_singleton] at hc
          subst hc
          rfl
      · show (q ++ [Callback.ended i b]).countP Callback.isEnded ≤ (q ++ [Callback.ended i b]).countP Callback.isWake + (s.places + 1)
        simp only [List.countP_append, List.countP_cons, List.countP_nil, Callback.isWake, Callback.isEnded, if_true, if_false, Bool.false_eq_true]
        omega
    · unfold taskWeight
      rw [hq, hw]
      simp only [List.map_append, List.sum_append, List.map_cons, List.sum_cons, List.map_nil, List.sum_nil, Callback.weight, List.length_nil]
      omega
  | cons j l =>
    refine ⟨_, rfl, ⟨key _ ?_ rfl rfl rfl rfl rfl rfl, fun hab => ?_⟩, ?_, fun e he => .inl he⟩
    · rw [hbusy]
      show (s.running ++ (q ++ [Callback.wake j] ++ [Callback.ended i b]).filterMap Callback.holder).Perm _
      rw [List.filterMap_append, List.filterMap_append]
      refine List.Perm.append_left _ ?_
      simp only [List.filterMap_cons, List.filterMap_nil, Callback.holder, List.append_nil]
      exact List.perm_append_comm
    · have hb := hb hab
      have hc := hb.count
      have ht := hb.tight
      have hsh := hb.shape
      have hea := hb.early
      have hall := hb.all
      rw [hq] at hc ht hsh hea
      rw [hbusy] at hall
      have hcom : comers s = (j :: l) ++ q.filterMap Callback.comer := by
        unfold comers
        rw [hq, hw]
        rfl
      rw [hcom] at hall
      have ht' : q.countP Callback.isEnded ≤ q.countP Callback.isWake + s.places := by
        rcases ht with ht | ⟨_, _, _, ht, -⟩
        · simpa [List.countP_cons, Callback.isWake, Callback.isEnded] using ht
        · cases ht
      simp only [List.countP_cons, Callback.isWake, Callback.isResume, if_true, if_false, Bool.false_eq_true, Nat.add_zero] at hc
      refine ⟨?_, ?_, ?_, ?_, ?_, .inl ?_⟩
      · refine List.Perm.trans ?_ hall
        refine List.Perm.append_left _ ?_
        show ((s.running ++ (q ++ [Callback.wake j] ++ [Callback.ended i b]).filterMap Callback.holder) ++ (l ++ (q ++ [Callback.wake j] ++ [Callback.ended i b]).filterMap Callback.comer)).Perm _
        simp only [List.filterMap_append, List.filterMap_cons, List.filterMap_nil, Callback.holder, Callback.comer, List.append_nil]
        refine List.Perm.append ?_ ?_
        · refine List.Perm.append_left _ ?_
          exact List.perm_append_comm
        · rw [← List.append_assoc]
          exact List.perm_append_comm
      · show s.places + (q ++ [Callback.wake j] ++ [Callback.ended i b]).countP Callback.isWake + s.running.length + (q ++ [Callback.wake j] ++ [Callback.ended i b]).countP Callback.isResume = 32
        simp only [List.countP_append, List.countP_cons, List.countP_nil, Callback.isWake, Callback.isResume, if_true, if_false, Bool.false_eq_true]
        omega
      · intro hp
        have := hb.full hp
        rw [hw] at this
        cases this
      · show Shape (q ++ [Callback.wake j] ++ [Callback.ended i b])
        rw [List.append_assoc]
        exact shape_append (q := q) hsh ⟨⟨i, b, [], rfl⟩, trivial⟩
      · refine early_of_none fun c hc => ?_
        have hc : c ∈ q ++ [Callback.wake j] ++ [Callback.ended i b] := hc
        simp only [List.mem_append, List.mem_singleton] at hc
        rcases hc with (hc | rfl) | rfl
        · exact hea c hc
        · rfl
        · rfl
      · show (q ++ [Callback.wake j] ++ [Callback.ended i b]).countP Callback.isEnded ≤ (q ++ [Callback.wake j] ++ [Callback.ended i b]).countP Callback.isWake + s.places
        simp only [List.countP_append, List.countP_cons, List.countP_nil, Callback.isWake, Callback.isEnded, if_true, if_false, Bool.false_eq_true]
        omega
    · unfold taskWeight
      rw [hq, hw]
      simp only [List.map_append, List.sum_append, List.map_cons, List.sum_cons, List.map_nil, List.sum_nil, Callback.weight, List.length_cons]
      omega

theorem holder_resumes (l : List Nat) : (l.map (Callback.resume · true)).filterMap Callback.holder = l := by
  induction l with
  | nil => rfl
  | cons i l ih =>
    rw [List.map_cons, List.filterMap_cons]
    simp only [Callback.holder]
    rw [ih]

theorem weight_resumes (l : List Nat) : ((l.map (Callback.resume · true)).map Callback.weight).sum = 2 * l.length := by
  induction l with
  | nil => rfl
  | cons i l ih =>
    simp only [List.map_cons, List.sum_cons, List.length_cons, Callback.weight]
    rw [ih]
    omega

theorem run_ended {n : Nat} {s : Tasks} (h : TInv n s) {i : Nat} {b : Bool} {q : List Callback} (hq : s.queue = .ended i b :: q) :
    ∃ t, runCallback { s with queue := q } (.ended i b) = some t ∧ TInv n t ∧ taskWeight t < taskWeight s ∧ KeepsConn s t := by
  obtain ⟨ha, hb⟩ := h
  obtain ⟨r1, r2, r3, r4, r5, r6, r7, r8⟩ := release_inv ha hq
  have hkeep : KeepsConn s (releaseConnection { s with queue := q, over := s.over ++ [(i, b)] } (some i)) := fun e he =>
    (r8 e he).imp_right fun hk => ⟨i, b, hk, List.mem_append_right _ (List.mem_singleton.mpr rfl)⟩
  have hrel : ∀ (x : Tasks) (task : Option Nat), (releaseConnection x task).aborting = x.aborting := fun _ _ => rfl
  unfold runCallback
  simp only [hrel]
  by_cases hcond : b = true ∧ ¬ s.aborting = true
  · rw [if_pos hcond]
    refine ⟨_, rfl, ⟨⟨?_, ?_, r3, r4, r5, r6, Nat.zero_le _, ?_⟩, fun h => by cases h⟩, ?_, hkeep⟩
    · refine r1.trans (List.Perm.cons _ (List.Perm.map _ ?_))
      show (s.running ++ q.filterMap Callback.holder).Perm ([] ++ (q ++ s.running.map (Callback.resume · true)).filterMap Callback.holder)
      rw [List.filterMap_append, holder_resumes]
      exact List.perm_append_comm
    · have : (busyTasks (abortTasks (releaseConnection { s with queue := q, over := s.over ++ [(i, b)] } (some i)))).Perm
          (busyTasks (releaseConnection { s with queue := q, over := s.over ++ [(i, b)] } (some i))) := by
        show ([] ++ (q ++ s.running.map (Callback.resume · true)).filterMap Callback.holder).Perm (s.running ++ q.filterMap Callback.holder)
        rw [List.filterMap_append, holder_resumes, List.nil_append]
        exact List.perm_append_comm
      exact this.nodup_iff.mpr r2
    · refine ⟨fun _ => ⟨i, ?_⟩, fun _ => rfl⟩
      show (i, true) ∈ s.over ++ [(i, b)]
      rw [hcond.1]
      simp
    · show 2 * (((q ++ s.running.map (Callback.resume · true)).map Callback.weight).sum + 5 * 0 + 3 * 0) + _ < _
      unfold taskWeight
      rw [hq, List.map_append, List.sum_append, weight_resumes]
      simp only [List.map_cons, List.sum_cons, Callback.weight]
      have : (abortTasks (releaseConnection { s with queue := q, over := s.over ++ [(i, b)] } (some i))).idle.length ≤ s.idle.length + 1 := r7
      omega
  · rw [if_neg hcond]
    refine ⟨_, rfl, ⟨⟨r1, r2, r3, r4, r5, r6, ha.runs, ?_⟩, fun hab => ?_⟩, ?_, hkeep⟩
    · show s.aborting = true ↔ ∃ j, (j, true) ∈ s.over ++ [(i, b)]
      rw [ha.bad]
      constructor
      · rintro ⟨j, hj⟩
        exact ⟨j, List.mem_append_left _ hj⟩
      · rintro ⟨j, hj⟩
        rcases List.mem_append.mp hj with hj | hj
        · exact ⟨j, hj⟩
        · simp only [List.mem_singleton, Prod.mk.injEq] at hj
          have hab : s.aborting = true := by
            cases hs : s.aborting with
            | true => rfl
            | false => exact absurd ⟨hj.2.symm, by rw [hs]; simp⟩ hcond
          exact ha.bad.mp hab
    · have hb := hb hab
      have hc := hb.count
      have ht := hb.tight
      have hsh := hb.shape
      have hea := hb.early
      have hall := hb.all
      rw [hq] at hc ht hsh hea
      have hbusy : busyTasks s = s.running ++ i :: q.filterMap Callback.holder := by
        unfold busyTasks
        rw [hq]
        rfl
      have hcom : comers s = s.waiting ++ q.filterMap Callback.comer := by
        unfold comers
        rw [hq]
        rfl
      rw [hbusy, hcom] at hall
      refine ⟨?_, ?_, hb.full, hsh, early_of_none hea, .inl ?_⟩
      · refine List.Perm.trans ?_ hall
        show ((s.over ++ [(i, b)]).map (·.1) ++ ((s.running ++ q.filterMap Callback.holder) ++ (s.waiting ++ q.filterMap Callback.comer))).Perm _
        simp only [List.map_append, List.map_cons, List.map_nil, List.append_assoc, List.singleton_append]
        refine List.Perm.append_left _ ?_
        exact List.perm_middle.symm
      · simpa [List.countP_cons, Callback.isWake, Callback.isResume, releaseConnection] using hc
      · show q.countP Callback.isEnded ≤ q.countP Callback.isWake + s.places
        rcases ht with ht | ⟨_, _, r, ht, ht'⟩
        · simp only [List.countP_cons, Callback.isWake, Callback.isEnded, if_true, if_false, Bool.false_eq_true, Nat.add_zero] at ht
          omega
        · cases ht
          exact ht'
    · show 2 * ((q.map Callback.weight).sum + 5 * s.waiting.length + 3 * s.running.length) + _ < _
      unfold taskWeight
      rw [hq]
      simp only [List.map_cons, List.sum_cons, Callback.weight]
      have : (releaseConnection { s with queue := q, over := s.over ++ [(i, b)] } (some i)).idle.length ≤ s.idle.length + 1 := r7
      omega

theorem happens_inv {n : Nat} {s : Tasks} (h : TInv n s) {r : Option Tasks} (hr : Happens s r) :
    ∃ t, r = some t ∧ TInv n t ∧ taskWeight t < taskWeight s ∧ KeepsConn s t := by
  cases hr with
  | @run c q hq =>
    cases c with
    | start i => exact run_start h hq
    | wake i => exact run_wake h hq
    | resume i b => exact run_resume h hq
    | ended i b => exact run_ended h hq
  | @download i hi b =>
    obtain ⟨ha, hb⟩ := h
    have hp : (busyTasks { s with running := s.running.erase i, queue := s.queue ++ [Callback.resume i b] }).Perm (busyTasks s) := by
      show (s.running.erase i ++ (s.queue ++ [Callback.resume i b]).filterMap Callback.holder).Perm (s.running ++ s.queue.filterMap Callback.holder)
      rw [List.filterMap_append]
      have h1 := List.perm_cons_erase hi
      have h2 := h1.append_right (s.queue.filterMap Callback.holder)
      refine List.Perm.trans ?_ h2.symm
      show (s.running.erase i ++ (s.queue.filterMap Callback.holder ++ [i])).Perm _
      rw [← List.append_assoc]
      exact List.perm_append_comm
    have hlen : s.running.length = (s.running.erase i).length + 1 := (List.perm_cons_erase hi).length_eq
    refine ⟨_, rfl, ⟨⟨?_, hp.nodup_iff.mpr ha.nodup, ha.vals, ha.below, ha.main, ha.few, ?_, ha.bad⟩, fun hab => ?_⟩, ?_, fun e he => .inl he⟩
    · exact ha.keys.trans ((hp.symm.map some).cons none)
    · have := ha.runs
      show (s.running.erase i).length ≤ 32
      omega
    · have hb := hb hab
      refine ⟨?_, ?_, hb.full, shape_append hb.shape trivial, early_append hb.early, ?_⟩
      · refine List.Perm.trans ?_ hb.all
        refine List.Perm.append_left _ (List.Perm.append hp (List.Perm.of_eq ?_))
        show s.waiting ++ (s.queue ++ [Callback.resume i b]).filterMap Callback.comer = _
        rw [List.filterMap_append]
        simp [Callback.comer, comers]
      · have := hb.count
        show s.places + (s.queue ++ [Callback.resume i b]).countP Callback.isWake + (s.running.erase i).length + (s.queue ++ [Callback.resume i b]).countP Callback.isResume = 32
        simp only [List.countP_append, List.countP_cons, List.countP_nil, Callback.isWake, Callback.isResume, if_true, if_false, Bool.false_eq_true]
        omega
      · rcases hb.tight with ht | ⟨j, c, q, h1, h2⟩
        · left
          show (s.queue ++ [Callback.resume i b]).countP Callback.isEnded ≤ (s.queue ++ [Callback.resume i b]).countP Callback.isWake + s.places
          simp only [List.countP_append, List.countP_cons, List.countP_nil, Callback.isWake, Callback.isEnded, if_false, Bool.false_eq_true]
          omega
        · right
          refine ⟨j, c, q ++ [Callback.resume i b], by simp [h1], ?_⟩
          show (q ++ [Callback.resume i b]).countP Callback.isEnded ≤ (q ++ [Callback.resume i b]).countP Callback.isWake + s.places
          simp only [List.countP_append, List.countP_cons, List.countP_nil, Callback.isWake, Callback.isEnded, if_false, Bool.false_eq_true]
          omega
    · unfold taskWeight
      simp only [List.map_append, List.sum_append, List.map_cons, List.sum_cons, List.map_nil, List.sum_nil, Callback.weight]
      omega
  | @close c hc =>
    obtain ⟨ha, hb⟩ := h
    have hsub : (s.idle.erase c).Sublist s.idle := List.erase_sublist
    refine ⟨_, rfl, ⟨⟨ha.keys, ha.nodup, ?_, ?_, ha.main, ha.few, ha.runs, ha.bad⟩, fun hab => ?_⟩, ?_, fun e he => .inl he⟩
    · exact ha.vals.sublist (List.Sublist.append_left hsub _)
    · exact fun x hx => ha.below x ((List.Sublist.append_left hsub _).subset hx)
    · have hb := hb hab
      exact ⟨hb.all, hb.count, hb.full, hb.shape, hb.early, hb.tight⟩
    · have : s.idle.length = (s.idle.erase c).length + 1 := (List.perm_cons_erase hc).length_eq
      unfold taskWeight
      simp only
      omega

theorem starts_counts (l : List Nat) : (l.map Callback.start).countP Callback.isWake = 0 ∧ (l.map Callback.start).countP Callback.isResume = 0 ∧
    (l.map Callback.start).countP Callback.isEnded = 0 ∧ (l.map Callback.start).filterMap Callback.holder = [] ∧
    (l.map Callback.start).filterMap Callback.comer = l ∧ Shape (l.map Callback.start) ∧ Early (l.map Callback.start) ∧
    ((l.map Callback.start).map Callback.weight).sum = 6 * l.length := by
  induction l with
  | nil => exact ⟨rfl, rfl, rfl, rfl, rfl, trivial, trivial, rfl⟩
  | cons i l ih =>
    obtain ⟨h1, h2, h3, h4, h5, h6, h7, h8⟩ := ih
    simp only [List.map_cons, List.countP_cons, List.filterMap_cons, Callback.isWake, Callback.isResume, Callback.isEnded, Callback.holder,
      Callback.comer, h1, h2, h3, h4, h5, List.sum_cons, Callback.weight, h8, List.length_cons]
    refine ⟨by simp, by simp, by simp, by simp, by simp, h6, ⟨?_, h7⟩, by omega⟩
    intro c hc
    obtain ⟨j, -, rfl⟩ := List.mem_map.mp hc
    exact ⟨rfl, rfl⟩

theorem tasksNew_inv (n : Nat) : TInv n (tasksNew n) := by
  obtain ⟨h1, h2, h3, h4, h5, h6, h7, -⟩ := starts_counts (List.range n)
  have hb : busyTasks (tasksNew n) = [] := by
    unfold busyTasks tasksNew
    simp only [h4, List.append_nil]
  refine ⟨⟨?_, ?_, by simp [tasksNew], by simp [tasksNew], by simp [tasksNew], by simp [tasksNew], by simp [tasksNew], by simp [tasksNew]⟩, fun _ => ⟨?_, ?_, fun _ => rfl, h6, h7, .inl ?_⟩⟩
  · rw [hb]
    exact List.Perm.refl _
  · rw [hb]
    exact List.nodup_nil
  · rw [hb]
    unfold comers tasksNew
    simp only [h5, List.map_nil, List.nil_append]
    exact List.Perm.refl _
  · unfold tasksNew
    simp only [h1, h2, List.length_nil]
  · unfold tasksNew
    simp only [h3]
    exact Nat.zero_le _

theorem afterSteps_inv {n k : Nat} {s : Tasks} (h : AfterSteps n k s) : TInv n s ∧ k + taskWeight s ≤ 12 * n := by
  induction h with
  | init =>
    refine ⟨tasksNew_inv n, ?_⟩
    obtain ⟨-, -, -, -, -, -, -, h8⟩ := starts_counts (List.range n)
    unfold taskWeight tasksNew
    simp only [h8, List.length_range, List.length_nil]
    omega
  | step _ hs ih =>
    obtain ⟨t, ht, h1, h2, -⟩ := happens_inv ih.1 hs
    cases ht
    exact ⟨h1, by have := ih.2; omega⟩

end Loc
