import Verif.Lemmas.Lifetime
import Verif.Spec.Lifetime
import Verif.Props.Tree
import Batteries.Lean.Except
/-
C37: network objects are not used after their release while a database is written.
-/
namespace Loc.Props
open Loc Loc.Spec

theorem World.st_new : St worldNew.held ⟨worldNew.heap, worldNew.tree, []⟩ :=
  ⟨fun _ => rfl, fun u i h => by cases u with
    | nil => cases h
    | cons b u => cases b <;> simp [worldNew, OTree.at] at h, fun _ _ h => by simp [worldNew, netAt] at h⟩

theorem lstep_safe {ctz0 : Nat} (h0 : 8 ≤ ctz0) {w : World} (hs : St w.held ⟨w.heap, w.tree, []⟩) {op : LOp} (hp : Proper w op) (hk : KeepsAll w op) :
    Safe (lstep ctz0 w op) (fun w' => St w'.held ⟨w'.heap, w'.tree, []⟩) := by
  cases op with
  | new n =>
    obtain ⟨a1, a2, a3⟩ := alloc_spec w.heap n
    refine ⟨fun j => ?_, fun u j hu => ?_, fun j x hx => ?_⟩
    · have p1 := hs.live j
      have p2 := a1 j
      simp only [one] at p1 p2 ⊢
      split at p2 <;> split <;> omega
    · obtain ⟨x, h1, h2⟩ := hs.tree u j hu
      exact ⟨x, a3 j x h1, h2⟩
    · rcases alloc_inv w.heap n j x hx with ⟨-, rfl⟩ | h1
      · exact hp
      · exact hs.blocks j x h1
  | take i =>
    have hi : 0 < refsOf w.heap i := by
      have := hs.live i
      have : 0 < w.held i := hp
      simp only at *
      omega
    refine (hs.ref hi).bind ?_
    rintro h ⟨h1, h2⟩
    refine ⟨fun j => ?_, h1.tree, h1.blocks⟩
    have p := h1.live j
    simp only [plus, one] at p ⊢
    split at p <;> split <;> omega
  | drop i =>
    have hi : 0 < refsOf w.heap i := by
      have := hs.live i
      have : 0 < w.held i := hp
      simp only at *
      omega
    have hs2 : St (plus (fun j => if j = i then w.held j - 1 else w.held j) i) ⟨w.heap, w.tree, []⟩ := by
      refine ⟨fun j => ?_, hs.tree, hs.blocks⟩
      have p := hs.live j
      have : 0 < w.held i := hp
      simp only [plus, one] at p ⊢
      by_cases hj : j = i
      · subst hj
        simp only [if_true]
        omega
      · simp only [if_neg hj]
        omega
    refine hs2.unref.bind ?_
    rintro h ⟨h1, h2⟩
    exact h1
  | add i =>
    have hi : 0 < refsOf w.heap i := by
      have := hs.live i
      have : 0 < w.held i := hp
      simp only at *
      omega
    obtain ⟨n, hn⟩ := refs_net hi
    refine (add_safe (p := fun _ => True) hs hi hn (hs.blocks i n hn) trivial).bind ?_
    rintro ⟨b, ⟨h, t, l⟩⟩ ⟨h1, -, h2⟩
    simp only at h2
    subst h2
    exact h1
  | write =>
    refine (write_safe h0 hs fun u i hi => hk i (List.count_pos_iff.mp (at_count hi))).bind ?_
    rintro ⟨h, t⟩ h1
    exact h1

theorem lrun_safe {ctz0 : Nat} (h0 : 8 ≤ ctz0) : ∀ (ops : List LOp) (w : World), St w.held ⟨w.heap, w.tree, []⟩ →
    Obeys ctz0 Proper w ops → Obeys ctz0 KeepsAll w ops → Safe (lrun ctz0 w ops) (fun w' => St w'.held ⟨w'.heap, w'.tree, []⟩) := by
  intro ops
  induction ops with
  | nil => intro w hs _ _; exact hs
  | cons op ops ih =>
    intro w hs hp hk
    rw [lrun]
    have h1 := lstep_safe h0 hs hp.1 hk.1
    have hp2 := hp.2
    have hk2 := hk.2
    cases e : lstep ctz0 w op with
    | error x =>
      rw [e] at h1
      cases x with
      | freed => exact h1
      | other x => trivial
    | ok w' =>
      rw [e] at h1 hp2 hk2
      exact ih w' h1 hp2 hk2

/-- C37, for callers that keep a reference to every network in the tree of the writer whenever they
    write: no object is used after its release.  Afterwards every object has exactly as many
    references as the tree and the caller hold, so that nothing is lost either.  Missing: callers
    that do not keep references, see `lifetime_violated`, and networks made by an earlier write, see
    `lifetime_violated_again`. -/
theorem lifetime_partial {ctz0 : Nat} (h0 : 8 ≤ ctz0) {ops : List LOp} (hp : Obeys ctz0 Proper worldNew ops) (hk : Obeys ctz0 KeepsAll worldNew ops) :
    lrun ctz0 worldNew ops ≠ .error .freed ∧ ∀ w, lrun ctz0 worldNew ops = .ok w → Accounted w := by
  have h := lrun_safe h0 ops worldNew World.st_new hp hk
  refine ⟨fun e => ?_, fun w e => ?_⟩
  · rw [e] at h
    exact h
  · rw [e] at h
    intro i n k hi
    have := h.live i
    unfold refsOf at this
    simp only [hi, List.count_nil] at this
    omega

/-- Adding, and everything else but writing, needs no more than proper conduct. -/
theorem lifetime_no_write {ctz0 : Nat} (h0 : 8 ≤ ctz0) {ops : List LOp} (hp : Obeys ctz0 Proper worldNew ops) (hw : LOp.write ∉ ops) :
    lrun ctz0 worldNew ops ≠ .error .freed := by
  refine (lifetime_partial h0 hp ?_).1
  have key : ∀ (ops : List LOp) (w : World), LOp.write ∉ ops → Obeys ctz0 KeepsAll w ops := by
    intro ops
    induction ops with
    | nil => intro w _; trivial
    | cons op ops ih =>
      intro w h
      simp only [List.mem_cons, not_or] at h
      refine ⟨?_, ?_⟩
      · cases op with
        | write => exact absurd rfl h.1
        | _ => trivial
      · cases lstep ctz0 w op with
        | ok w' => exact ih w' h.2
        | error _ => trivial
  exact key ops worldNew hw

instance (w : World) (op : LOp) : Decidable (Proper w op) := by
  cases op <;> unfold Proper <;> infer_instance

instance (w : World) (op : LOp) : Decidable (KeepsAll w op) := by
  cases op <;> unfold KeepsAll <;> infer_instance

instance (ctz0 : Nat) (rule : World → LOp → Prop) [∀ w op, Decidable (rule w op)] : ∀ (ops : List LOp) (w : World), Decidable (Obeys ctz0 rule w ops)
  | [], _ => isTrue trivial
  | op :: ops, w => by
    unfold Obeys
    have : Decidable (match lstep ctz0 w op with
      | .ok w' => Obeys ctz0 rule w' ops
      | .error _ => True) := by
      cases lstep ctz0 w op with
      | ok w' => exact instDecidableObeys ctz0 rule ops w'
      | error _ => exact isTrue trivial
    infer_instance

/-- 10.`lo`.0.0/`p` without properties, `hi` being the second octet of its last address. -/
def net10 (lo hi : Byte) (p : Nat) : Network :=
  ⟨.inet, #v[0,0,0,0, 0,0,0,0, 0,0,0xff,0xff, 10,lo,0,0], #v[0,0,0,0, 0,0,0,0, 0,0,0xff,0xff, 10,hi,255,255], 96 + p, 0, 0, 0, 0⟩

example : newNetwork (net10 0 0 16).first 16 = .ok (net10 0 0 16) := by decide +kernel
example : newNetwork (net10 1 1 16).first 16 = .ok (net10 1 1 16) := by decide +kernel
example : newNetwork (net10 0 1 15).first 15 = .ok (net10 0 1 15) := by decide +kernel

/-- The caller adds 10.0.0.0/16 and 10.1.0.0/16, keeps its references and writes. -/
def keeper : List LOp := [.new (net10 0 0 16), .add 0, .new (net10 1 1 16), .add 1, .write]

/-- They are merged: the tree has one network afterwards, object 2. -/
example : Obeys 32 Proper worldNew keeper ∧ Obeys 32 KeepsAll worldNew keeper ∧
    (lrun 32 worldNew keeper).map (fun w => (w.heap, w.tree.ids)) = .ok ([(net10 0 0 16, 1), (net10 1 1 16, 1), (net10 0 1 15, 1)], [2]) := by
  decide +kernel

/-- The same, but the caller drops its references after adding: the tree owns the networks. -/
def dropper : List LOp := [.new (net10 0 0 16), .add 0, .drop 0, .new (net10 1 1 16), .add 1, .drop 1, .write]

/-- Whether a released object was used, as a `Bool`. -/
def isFreed {α : Type} : LRes α → Bool
  | .error .freed => true
  | _ => false

theorem of_isFreed {α : Type} {r : LRes α} (h : isFreed r = true) : r = .error .freed := by
  cases r with
  | ok a => cases h
  | error e =>
    cases e with
    | freed => rfl
    | other f => cases h

/-- Then 10.1.0.0/16 is read after its release: the code violates C37. -/
theorem lifetime_violated : Obeys 32 Proper worldNew dropper ∧ lrun 32 worldNew dropper = .error .freed :=
  ⟨by decide +kernel, of_isFreed (by decide +kernel)⟩

/-- A caller that keeps all references it ever gets: it writes 10.2.0.0/16 and 10.3.0.0/16, then adds
    10.0.0.0/15 and writes again. -/
def again : List LOp := [.new (net10 2 2 16), .add 0, .new (net10 3 3 16), .add 1, .write, .new (net10 0 1 15), .add 3, .write]

/-- The first write makes 10.2.0.0/15, to which only the tree has a reference; the second one releases
    and then reads it. -/
theorem lifetime_violated_again : Obeys 32 Proper worldNew again ∧ (∀ i, LOp.drop i ∉ again) ∧ lrun 32 worldNew again = .error .freed :=
  ⟨by decide +kernel, fun i => by simp [again], of_isFreed (by decide +kernel)⟩

end Loc.Props
