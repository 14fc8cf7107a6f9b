import Verif.Props.Network
/-
C08: a network list is a sorted set under every operation sequence.
-/
namespace Loc.Props
open Spec

/-- The operations of the list API. -/
inductive ListOp
  | push (n : Network)
  | pop
  | popFirst
  | remove (n : Network)
  | merge (other : NetList)
  | clear
  | contains (n : Network)
  | size
  | get (i : Nat)

/-- What an operation returns. -/
inductive ListOut
  | unit
  | net (n : Option Network)
  | bool (b : Bool)
  | nat (k : Nat)

/-- One call into the model of network-list.c (`clear`: 101-113, `size`: 93-95, `get`: 126-132). -/
def listStep (l : NetList) : ListOp → Res (NetList × ListOut)
  | .push n => do return (← listPush l n, .unit)
  | .pop => .ok ((listPop l).2, .net (listPop l).1)
  | .popFirst => .ok ((listPopFirst l).2, .net (listPopFirst l).1)
  | .remove n => do return (← listRemove l n, .unit)
  | .merge other => do return (← listMerge l other, .unit)
  | .clear => .ok ([], .unit)
  | .contains n => do return (l, .bool (← listContains l n))
  | .size => .ok (l, .nat l.length)
  | .get i => .ok (l, .net (if i ≥ l.length then none else l[i]?))

def listRun (l : NetList) : List ListOp → Res (NetList × List ListOut)
  | [] => .ok (l, [])
  | op :: ops => do
    let (l, o) ← listStep l op
    let (l, os) ← listRun l ops
    return (l, o :: os)

/-! Specification: a mathematical set of networks, given by its membership predicate. -/

/-- `S` is a finite set with `k` elements. -/
def HasCard (S : Network → Prop) (k : Nat) : Prop := ∃ l : List Network, l.Nodup ∧ l.length = k ∧ ∀ x, x ∈ l ↔ S x

/-- Number of elements of `S` before `x` is `k`. -/
def Rank (S : Network → Prop) (x : Network) (k : Nat) : Prop := HasCard (fun y => S y ∧ Before y x) k

/-- What each operation means for the set. -/
def SetStep (S : Network → Prop) (op : ListOp) (out : ListOut) (S' : Network → Prop) : Prop :=
  match op with
  | .push n => out = .unit ∧ ∀ x, S' x ↔ S x ∨ (x = n ∧ ¬ ∃ e, S e ∧ SameBlock n e)
  | .pop => ((∀ x, ¬ S x) ∧ out = .net none ∧ ∀ x, ¬ S' x) ∨
      ∃ m, S m ∧ (∀ x, S x → x = m ∨ Before x m) ∧ out = .net (some m) ∧ ∀ x, S' x ↔ S x ∧ x ≠ m
  | .popFirst => ((∀ x, ¬ S x) ∧ out = .net none ∧ ∀ x, ¬ S' x) ∨
      ∃ m, S m ∧ (∀ x, S x → x = m ∨ Before m x) ∧ out = .net (some m) ∧ ∀ x, S' x ↔ S x ∧ x ≠ m
  | .remove n => out = .unit ∧ ∀ x, S' x ↔ S x ∧ ¬ SameBlock n x
  | .merge other => out = .unit ∧ ∀ x, S' x ↔ S x ∨ (x ∈ other ∧ ¬ ∃ e, S e ∧ SameBlock x e)
  | .clear => out = .unit ∧ ∀ x, ¬ S' x
  | .contains n => (∃ b, out = .bool b ∧ (b = true ↔ ∃ e, S e ∧ SameBlock n e)) ∧ ∀ x, S' x ↔ S x
  | .size => (∃ k, out = .nat k ∧ HasCard S k) ∧ ∀ x, S' x ↔ S x
  | .get i => ((∃ x, out = .net (some x) ∧ S x ∧ Rank S x i) ∨
      (out = .net none ∧ ∃ k, HasCard S k ∧ k ≤ i)) ∧ ∀ x, S' x ↔ S x

inductive SetRun : (Network → Prop) → List ListOp → List ListOut → (Network → Prop) → Prop
  | nil {S} : SetRun S [] [] S
  | cons {S S' S'' op ops o os} : SetStep S op o S' → SetRun S' ops os S'' → SetRun S (op :: ops) (o :: os) S''

/-- The operand of a merge is itself a network list, hence ascending. -/
def OpOk : ListOp → Prop
  | .merge other => Ascending other
  | _ => True

theorem rank_get {l : NetList} (h : Ascending l) (i : Nat) (hi : i < l.length) : Rank (· ∈ l) l[i] i := by
  refine ⟨l.take i, (asc_nodup h).sublist (List.take_sublist i l), by simp; omega, ?_⟩
  intro y
  constructor
  · intro hy
    refine ⟨List.mem_of_mem_take hy, ?_⟩
    obtain ⟨j, hj, rfl⟩ := List.getElem_of_mem hy
    simp at hj
    rw [List.getElem_take]
    exact List.pairwise_iff_getElem.mp h j i (by omega) hi (by omega)
  · rintro ⟨hy, hb⟩
    obtain ⟨j, hj, rfl⟩ := List.getElem_of_mem hy
    have hji : j < i := by
      rcases Nat.lt_trichotomy j i with h' | h' | h'
      · exact h'
      · subst h'; exact absurd hb (before_irrefl _)
      · exact absurd hb (before_asymm (List.pairwise_iff_getElem.mp h i j hi hj h'))
    rw [List.mem_iff_getElem]
    exact ⟨j, by simp; omega, List.getElem_take ..⟩

theorem listStep_refines (l : NetList) (h : Ascending l) (op : ListOp) (hop : OpOk op) :
    ∃ l' o, listStep l op = .ok (l', o) ∧ Ascending l' ∧ SetStep (· ∈ l) op o (· ∈ l') := by
  cases op with
  | push n =>
    obtain ⟨l', h1, h2, h3⟩ := listPush_mem l n h
    exact ⟨l', .unit, by simp [listStep, h1, bind, Except.bind, pure, Except.pure], h2, rfl, h3⟩
  | pop =>
    by_cases h0 : l.length = 0
    · have := List.length_eq_zero_iff.mp h0
      subst this
      exact ⟨[], _, rfl, h, .inl ⟨by simp, rfl, by simp⟩⟩
    · have hlt : l.length - 1 < l.length := by omega
      have hget : l[l.length - 1]? = some l[l.length - 1] := List.getElem?_eq_getElem hlt
      have hsplit : l = l.take (l.length - 1) ++ [l[l.length - 1]] := by
        have := List.take_append_drop (l.length - 1) l
        rw [List.drop_eq_getElem_cons hlt, List.drop_of_length_le (by omega)] at this
        exact this.symm
      refine ⟨l.take (l.length - 1), .net (some l[l.length - 1]), ?_,
        List.Pairwise.sublist (List.take_sublist _ _) h, .inr ⟨l[l.length - 1], List.getElem_mem hlt, ?_, rfl, ?_⟩⟩
      · simp only [listStep, listPop, if_neg h0, hget]
      · intro x hx
        obtain ⟨j, hj, rfl⟩ := List.getElem_of_mem hx
        by_cases hjl : j = l.length - 1
        · left; subst hjl; rfl
        · right; exact List.pairwise_iff_getElem.mp h j _ hj hlt (by omega)
      · intro x
        have hnd := asc_nodup h
        rw [hsplit, List.nodup_append] at hnd
        constructor
        · intro hx
          refine ⟨List.mem_of_mem_take hx, ?_⟩
          intro e
          exact hnd.2.2 x hx _ (List.mem_singleton.mpr rfl) e
        · rintro ⟨hx, hne⟩
          rw [hsplit, List.mem_append, List.mem_singleton] at hx
          rcases hx with hx | hx
          · exact hx
          · exact absurd hx hne
  | popFirst =>
    cases l with
    | nil => exact ⟨[], _, rfl, h, .inl ⟨by simp, rfl, by simp⟩⟩
    | cons m l =>
      have hc := List.pairwise_cons.mp h
      refine ⟨l, .net (some m), rfl, hc.2, .inr ⟨m, List.mem_cons_self .., ?_, rfl, ?_⟩⟩
      · intro x hx
        rw [List.mem_cons] at hx
        rcases hx with rfl | hx
        · exact .inl rfl
        · exact .inr (hc.1 x hx)
      · intro x
        have hnd := List.nodup_cons.mp (asc_nodup h)
        show x ∈ l ↔ x ∈ m :: l ∧ x ≠ m
        rw [List.mem_cons]
        constructor
        · intro hx
          exact ⟨.inr hx, fun e => hnd.1 (e ▸ hx)⟩
        · rintro ⟨hx | hx, hne⟩
          · exact absurd hx hne
          · exact hx
  | remove n =>
    obtain ⟨l', h1, h2, -, h3⟩ := listRemove_spec l n h
    exact ⟨l', .unit, by simp [listStep, h1, bind, Except.bind, pure, Except.pure], h2, rfl, h3⟩
  | merge other =>
    obtain ⟨l', h1, h2, h3⟩ := listMerge_mem other l h hop
    exact ⟨l', .unit, by simp [listStep, h1, bind, Except.bind, pure, Except.pure], h2, rfl, h3⟩
  | clear => exact ⟨[], _, rfl, List.Pairwise.nil, rfl, by simp⟩
  | contains n =>
    obtain ⟨b, h1, h2⟩ := listContains_spec l n h
    exact ⟨l, .bool b, by simp [listStep, h1, bind, Except.bind, pure, Except.pure], h, ⟨b, rfl, h2⟩,
      fun x => Iff.rfl⟩
  | size => exact ⟨l, _, rfl, h, ⟨_, rfl, l, asc_nodup h, rfl, fun x => Iff.rfl⟩, fun x => Iff.rfl⟩
  | get i =>
    by_cases hi : i ≥ l.length
    · refine ⟨l, .net none, by simp only [listStep, if_pos hi], h, .inr ⟨rfl, l.length, ?_, hi⟩, fun x => Iff.rfl⟩
      exact ⟨l, asc_nodup h, rfl, fun x => Iff.rfl⟩
    · have hlt : i < l.length := by omega
      refine ⟨l, .net (some l[i]), ?_, h, .inl ⟨l[i], rfl, List.getElem_mem hlt, rank_get h i hlt⟩, fun x => Iff.rfl⟩
      simp only [listStep, if_neg hi, List.getElem?_eq_getElem hlt]

/-- C08: every sequence of operations, of any length, starting from an empty list (or any ascending
    one), never faults, keeps the list strictly ascending, and behaves exactly as the mathematical set:
    outputs and final contents are related by `SetRun`. -/
theorem list_refines_set (ops : List ListOp) (hops : ∀ op ∈ ops, OpOk op) (l : NetList) (h : Ascending l) :
    ∃ l' outs, listRun l ops = .ok (l', outs) ∧ Ascending l' ∧ SetRun (· ∈ l) ops outs (· ∈ l') := by
  induction ops generalizing l with
  | nil => exact ⟨l, [], rfl, h, .nil⟩
  | cons op ops ih =>
    obtain ⟨l1, o, h1, h2, h3⟩ := listStep_refines l h op (hops op (List.mem_cons_self ..))
    obtain ⟨l2, os, g1, g2, g3⟩ := ih (fun o ho => hops o (List.mem_cons_of_mem _ ho)) l1 h2
    refine ⟨l2, o :: os, ?_, g2, .cons h3 g3⟩
    simp [listRun, h1, g1, bind, Except.bind, pure, Except.pure]

/-- C08, from the empty list. -/
theorem list_refines_set_empty (ops : List ListOp) (hops : ∀ op ∈ ops, OpOk op) :
    ∃ l outs, listRun [] ops = .ok (l, outs) ∧ Ascending l ∧ SetRun (fun _ => False) ops outs (· ∈ l) := by
  obtain ⟨l, outs, h1, h2, h3⟩ := list_refines_set ops hops [] List.Pairwise.nil
  refine ⟨l, outs, h1, h2, ?_⟩
  have : (fun x => x ∈ ([] : NetList)) = fun _ => False := by funext x; simp
  rw [this] at h3
  exact h3

example : (∀ op ∈ [ListOp.push net10_1_16, .push net10_8, .push net10_1_16, .pop], OpOk op) ∧
    ∃ r, listRun [] [.push net10_1_16, .push net10_8, .push net10_1_16, .pop] = .ok r ∧ r.1 = [net10_8] :=
  ⟨by simp [OpOk], _, rfl, rfl⟩

end Loc.Props
