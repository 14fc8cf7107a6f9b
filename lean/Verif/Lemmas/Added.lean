import Verif.Lemmas.Written
/-
The networks of a writer that has not written yet are the networks that were added.
-/
namespace Loc
open Spec

theorem step_networks {K : Type} {ctz0 : Nat} (h0 : 8 ≤ ctz0) {w w' : Writer K} {l : List Network} (hr : Reach ctz0 w.networks)
    (hl : ∀ k, k ∈ w.networks.networks ↔ k ∈ l) {op : WOp K} (hop : OpOk ctz0 op) (hw : IsWrite op = false)
    (e : wstep w op = .ok w') : ∀ k, k ∈ w'.networks.networks ↔ k ∈ networkStep l op := by
  cases op with
  | vendor s =>
    cases s with
    | none => simp only [wstep, setVendor] at e; cases e; exact hl
    | some s =>
      simp only [wstep, setVendor] at e
      cases hp : poolAdd w.pool s with
      | error x =>
        rw [hp] at e
        cases x with
        | err n => cases e; exact hl
        | _ => cases e
      | ok r => rw [hp] at e; cases e; exact hl
  | description s =>
    cases s with
    | none => simp only [wstep, setDescription] at e; cases e; exact hl
    | some s =>
      simp only [wstep, setDescription] at e
      cases hp : poolAdd w.pool s with
      | error x =>
        rw [hp] at e
        cases x with
        | err n => cases e; exact hl
        | _ => cases e
      | ok r => rw [hp] at e; cases e; exact hl
  | license s =>
    cases s with
    | none => simp only [wstep, setLicense] at e; cases e; exact hl
    | some s =>
      simp only [wstep, setLicense] at e
      cases hp : poolAdd w.pool s with
      | error x =>
        rw [hp] at e
        cases x with
        | err n => cases e; exact hl
        | _ => cases e
      | ok r => rw [hp] at e; cases e; exact hl
  | addAs k s => cases e; exact hl
  | renameAs k s => cases e; exact hl
  | addCountry code cont name =>
    simp only [wstep, addCountry] at e
    cases hc : countryNew code with
    | error x =>
      rw [hc] at e
      cases x with
      | err n => cases e; exact hl
      | _ => cases e
    | ok r => rw [hc] at e; cases e; exact hl
  | addNetwork n =>
    simp only [wstep, addNetwork] at e
    obtain ⟨r, t', ht, h1, h2⟩ := Props.add_network_set ctz0 h0 hr hop
    rw [ht] at e
    cases e
    intro k
    have hiff : (∃ m ∈ w.networks.networks, SameBlock m n) ↔ ∃ m ∈ l, SameBlock m n := by simp only [hl]
    by_cases hx : ∃ m ∈ l, SameBlock m n
    · simp only [networkStep, if_pos hx]
      show k ∈ t'.networks ↔ _
      rw [(h2 (hiff.mpr hx)).2]
      exact hl k
    · simp only [networkStep, if_neg hx]
      show k ∈ t'.networks ↔ _
      rw [(h1 (fun h => hx (hiff.mp h))).2 k, hl k]
      simp
  | changeNetwork n n' =>
    cases e
    intro k
    simp only [networkStep, List.mem_map]
    show k ∈ (w.networks.replace n n').networks ↔ _
    rw [mem_networks]
    simp only [look_replace, Option.map_eq_some_iff]
    constructor
    · rintro ⟨u, m, h1, h2⟩
      exact ⟨m, (hl m).mp ((mem_networks _ _).mpr ⟨u, h1⟩), h2⟩
    · rintro ⟨m, h1, h2⟩
      obtain ⟨u, hu⟩ := (mem_networks _ _).mp ((hl m).mpr h1)
      exact ⟨u, m, hu, h2⟩
  | write e old version => cases hw

theorem run_networks {K : Type} {ctz0 : Nat} (h0 : 8 ≤ ctz0) {key1 key2 : Option K} (ops : List (WOp K)) :
    ∀ {done : List (WOp K)} {w w' : Writer K} {l : List Network}, WInv ctz0 key1 key2 done w →
      (∀ k, k ∈ w.networks.networks ↔ k ∈ l) → (∀ op ∈ ops, OpOk ctz0 op) → (∀ op ∈ ops, IsWrite op = false) →
      wrun w ops = .ok w' → ∀ k, k ∈ w'.networks.networks ↔ k ∈ ops.foldl networkStep l := by
  induction ops with
  | nil => intro done w w' l hi hl _ _ e; cases e; exact hl
  | cons op ops ih =>
    intro done w w' l hi hl hop hnw e
    unfold wrun at e
    cases hs : wstep w op with
    | error x => rw [hs] at e; cases e
    | ok w1 =>
      rw [hs] at e
      exact ih (winv_step hi (hop op (by simp)) hs)
        (step_networks h0 hi.reach hl (hop op (by simp)) (hnw op (by simp)) hs)
        (fun x hx => hop x (by simp [hx])) (fun x hx => hnw x (by simp [hx])) e

theorem writes_networks {K : Type} {ctz0 : Nat} (h0 : 8 ≤ ctz0) {key1 key2 : Option K} {ops : List (WOp K)} {w : Writer K}
    (h : Writes ctz0 key1 key2 ops w) (hnw : ∀ op ∈ ops, IsWrite op = false) :
    ∀ k, k ∈ w.networks.networks ↔ k ∈ networksOf ops := by
  obtain ⟨hop, w0, hw0, hr⟩ := h
  refine run_networks h0 ops (winv_new ctz0 key1 key2 hw0) (l := []) ?_ hop hnw hr
  intro k
  unfold writerNew at hw0
  split at hw0
  · cases hw0
  · cases hw0; exact Iff.rfl

/-- The tree of a writer, computed from the calls alone. -/
def treeOf {K : Type} : Tree → List (WOp K) → Option Tree
  | t, [] => some t
  | t, .addNetwork n :: ops => match treeAdd t n with
    | .error _ => none
    | .ok (_, t) => treeOf t ops
  | t, .changeNetwork n n' :: ops => treeOf (t.replace n n') ops
  | t, _ :: ops => treeOf t ops

theorem run_tree {K : Type} (ops : List (WOp K)) : ∀ {w w' : Writer K}, (∀ op ∈ ops, IsWrite op = false) → wrun w ops = .ok w' →
    treeOf w.networks ops = some w'.networks := by
  induction ops with
  | nil => intro w w' _ e; cases e; rfl
  | cons op ops ih =>
    intro w w' hnw e
    unfold wrun at e
    have hnw' : ∀ x ∈ ops, IsWrite x = false := fun x hx => hnw x (by simp [hx])
    cases hs : wstep w op with
    | error x => rw [hs] at e; cases e
    | ok w1 =>
      rw [hs] at e
      have hih := ih hnw' e
      cases op with
      | vendor s =>
        have : w1.networks = w.networks := by
          cases s with
          | none => simp only [wstep, setVendor] at hs; cases hs; rfl
          | some s =>
            simp only [wstep, setVendor] at hs
            cases hp : poolAdd w.pool s with
            | error x =>
              rw [hp] at hs
              cases x with
              | err n => cases hs; rfl
              | _ => cases hs
            | ok r => rw [hp] at hs; cases hs; rfl
        rw [← this]; exact hih
      | description s =>
        have : w1.networks = w.networks := by
          cases s with
          | none => simp only [wstep, setDescription] at hs; cases hs; rfl
          | some s =>
            simp only [wstep, setDescription] at hs
            cases hp : poolAdd w.pool s with
            | error x =>
              rw [hp] at hs
              cases x with
              | err n => cases hs; rfl
              | _ => cases hs
            | ok r => rw [hp] at hs; cases hs; rfl
        rw [← this]; exact hih
      | license s =>
        have : w1.networks = w.networks := by
          cases s with
          | none => simp only [wstep, setLicense] at hs; cases hs; rfl
          | some s =>
            simp only [wstep, setLicense] at hs
            cases hp : poolAdd w.pool s with
            | error x =>
              rw [hp] at hs
              cases x with
              | err n => cases hs; rfl
              | _ => cases hs
            | ok r => rw [hp] at hs; cases hs; rfl
        rw [← this]; exact hih
      | addAs k s => cases hs; exact hih
      | renameAs k s => cases hs; exact hih
      | addCountry code cont name =>
        have : w1.networks = w.networks := by
          simp only [wstep, addCountry] at hs
          cases hc : countryNew code with
          | error x =>
            rw [hc] at hs
            cases x with
            | err n => cases hs; rfl
            | _ => cases hs
          | ok r => rw [hc] at hs; cases hs; rfl
        rw [← this]; exact hih
      | addNetwork n =>
        simp only [wstep, addNetwork] at hs
        cases ht : treeAdd w.networks n with
        | error x => rw [ht] at hs; cases hs
        | ok r =>
          rw [ht] at hs
          cases hs
          simp only [treeOf, ht]
          exact hih
      | changeNetwork n n' => cases hs; exact hih
      | write e old version => have := hnw (.write e old version) (by simp); cases this

theorem writes_tree {K : Type} {ctz0 : Nat} {key1 key2 : Option K} {ops : List (WOp K)} {w : Writer K}
    (h : Writes ctz0 key1 key2 ops w) (hnw : ∀ op ∈ ops, IsWrite op = false) : treeOf treeNew ops = some w.networks := by
  obtain ⟨hop, w0, hw0, hr⟩ := h
  have := run_tree ops hnw hr
  unfold writerNew at hw0
  split at hw0
  · cases hw0
  · cases hw0; exact this

end Loc
