import Verif.Model.Lifetime
import Verif.Lemmas.Merge
import Verif.Lemmas.Tree
import Mathlib.Data.List.Perm.Basic
/-
Reference counts of network objects while a database is written.
-/
namespace Loc
open Spec

/-- No released object is accessed; the result, if there is one, satisfies `P`. -/
def Safe {α : Type} (r : LRes α) (P : α → Prop) : Prop :=
  match r with
  | .ok a => P a
  | .error .freed => False
  | .error (.other _) => True

theorem Safe.bind {α β : Type} {r : LRes α} {f : α → LRes β} {P : α → Prop} {Q : β → Prop} (h : Safe r P) (hf : ∀ a, P a → Safe (f a) Q) :
    Safe (r >>= f) Q := by
  cases r with
  | ok a => exact hf a h
  | error e =>
    cases e with
    | freed => exact h
    | other _ => trivial

theorem Safe.mono {α : Type} {r : LRes α} {P Q : α → Prop} (h : Safe r P) (hf : ∀ a, P a → Q a) : Safe r Q := by
  cases r with
  | ok a => exact hf a h
  | error e =>
    cases e with
    | freed => exact h
    | other _ => trivial

theorem safe_lift {α : Type} {r : Res α} {P : α → Prop} (h : ∀ a, r = .ok a → P a) : Safe (liftRes r) P := by
  cases r with
  | ok a => exact h a rfl
  | error e => trivial

/-- The reference count of an object; 0 if there is none. -/
def refsOf (h : Heap) (i : Nat) : Nat :=
  match h[i]? with
  | some (_, k) => k
  | none => 0

/-- The content of an object, released or not. -/
def netAt (h : Heap) (i : Nat) : Option Network := (h[i]?).map (·.1)

def one (i j : Nat) : Nat := if j = i then 1 else 0

theorem deref_spec {h : Heap} {i : Nat} (hi : 0 < refsOf h i) : Safe (deref h i) (fun n => netAt h i = some n) := by
  unfold refsOf at hi
  unfold deref netAt
  cases e : h[i]? with
  | none => rw [e] at hi; simp at hi
  | some p =>
    obtain ⟨n, k⟩ := p
    rw [e] at hi
    simp only at hi ⊢
    rw [if_neg (by omega)]
    rfl

theorem set_spec {h : Heap} {i : Nat} {n : Network} {k k' : Nat} (e : h[i]? = some (n, k)) :
    (∀ j, refsOf (h.set i (n, k')) j = if j = i then k' else refsOf h j) ∧ ∀ j, netAt (h.set i (n, k')) j = netAt h j := by
  have hl : i < h.length := (List.getElem?_eq_some_iff.mp e).1
  constructor
  · intro j
    unfold refsOf
    rw [List.getElem?_set]
    by_cases hj : i = j
    · rw [if_pos hj, if_pos hl, if_pos hj.symm]
    · rw [if_neg hj, if_neg (fun h => hj h.symm)]
  · intro j
    unfold netAt
    rw [List.getElem?_set]
    by_cases hj : i = j
    · rw [if_pos hj, if_pos hl, ← hj, e]
      rfl
    · rw [if_neg hj]

theorem ref_spec {h : Heap} {i : Nat} (hi : 0 < refsOf h i) :
    Safe (ref h i) (fun h' => (∀ j, refsOf h' j = refsOf h j + one i j) ∧ ∀ j, netAt h' j = netAt h j) := by
  have hi' := hi
  unfold refsOf at hi'
  unfold ref
  cases e : h[i]? with
  | none => rw [e] at hi'; simp at hi'
  | some p =>
    obtain ⟨n, k⟩ := p
    rw [e] at hi'
    simp only at hi' ⊢
    rw [if_neg (by omega)]
    obtain ⟨h1, h2⟩ := set_spec (k' := k + 1) e
    refine ⟨fun j => ?_, h2⟩
    rw [h1]
    unfold one
    by_cases hj : j = i
    · rw [if_pos hj, if_pos hj, hj]
      unfold refsOf
      rw [e]
    · rw [if_neg hj, if_neg hj]
      rfl

theorem unref_spec {h : Heap} {i : Nat} (hi : 0 < refsOf h i) :
    Safe (unref h i) (fun h' => (∀ j, refsOf h j = refsOf h' j + one i j) ∧ ∀ j, netAt h' j = netAt h j) := by
  have hi' := hi
  unfold refsOf at hi'
  unfold unref
  cases e : h[i]? with
  | none => rw [e] at hi'; simp at hi'
  | some p =>
    obtain ⟨n, k⟩ := p
    rw [e] at hi'
    simp only at hi' ⊢
    rw [if_neg (by omega)]
    obtain ⟨h1, h2⟩ := set_spec (k' := k - 1) e
    refine ⟨fun j => ?_, h2⟩
    rw [h1]
    unfold one
    by_cases hj : j = i
    · rw [if_pos hj, if_pos hj, hj]
      unfold refsOf
      rw [e]
      simp only
      omega
    · rw [if_neg hj, if_neg hj]
      rfl

theorem alloc_spec (h : Heap) (n : Network) : (∀ j, refsOf (alloc h n).1 j = refsOf h j + one (alloc h n).2 j) ∧
    netAt (alloc h n).1 (alloc h n).2 = some n ∧ ∀ j x, netAt h j = some x → netAt (alloc h n).1 j = some x := by
  unfold alloc
  simp only
  refine ⟨?_, ?_, ?_⟩
  · intro j
    unfold refsOf one
    rw [List.getElem?_append]
    by_cases h1 : j < h.length
    · rw [if_pos h1, if_neg (by omega)]
      rfl
    · rw [if_neg h1, List.getElem?_eq_none (l := h) (by omega)]
      by_cases h2 : j = h.length
      · rw [if_pos h2, h2]
        simp
      · rw [if_neg h2, List.getElem?_eq_none]
        simp
        omega
  · unfold netAt
    rw [List.getElem?_append, if_neg (by omega)]
    simp
  · intro j x hx
    unfold netAt at hx ⊢
    have hl : j < h.length := by
      rcases Nat.lt_or_ge j h.length with h1 | h1
      · exact h1
      · rw [List.getElem?_eq_none h1] at hx
        cases hx
    rw [List.getElem?_append, if_pos hl]
    exact hx

theorem alloc_inv (h : Heap) (n : Network) (j : Nat) (x : Network) (hx : netAt (alloc h n).1 j = some x) :
    (j = (alloc h n).2 ∧ x = n) ∨ netAt h j = some x := by
  unfold alloc netAt at hx
  simp only [List.getElem?_append] at hx
  unfold alloc netAt
  by_cases h1 : j < h.length
  · rw [if_pos h1] at hx
    exact Or.inr hx
  · rw [if_neg h1] at hx
    rcases Nat.eq_zero_or_pos (j - h.length) with h2 | h2
    · rw [h2] at hx
      simp only [List.getElem?_cons_zero, Option.map_some, Option.some.injEq] at hx
      exact Or.inl ⟨by simp only; omega, hx.symm⟩
    · rw [List.getElem?_eq_none (by simp only [List.length_singleton]; omega)] at hx
      cases hx

/-! ### Trees -/

/-- The object at a node. -/
def OTree.at : OTree → List Bool → Option Nat
  | .nil, _ => none
  | .node _ net _ _, [] => net
  | .node _ _ z _, false :: u => z.at u
  | .node _ _ _ o, true :: u => o.at u

theorem ids_getNode (t : OTree) : (oGetNode t).ids = t.ids := by
  cases t with
  | nil => rfl
  | node d net z o => cases d <;> rfl

theorem at_getNode (t : OTree) (u : List Bool) : (oGetNode t).at u = t.at u := by
  cases t with
  | nil =>
    cases u with
    | nil => rfl
    | cons b u => cases b <;> simp [oGetNode, OTree.at]
  | node d net z o =>
    cases d <;> cases u with
    | nil => rfl
    | cons b u => cases b <;> simp [oGetNode, OTree.at]

theorem at_count {t : OTree} : ∀ {u : List Bool} {i : Nat}, t.at u = some i → 0 < t.ids.count i := by
  induction t with
  | nil => intro u i h; simp [OTree.at] at h
  | node d net z o ihz iho =>
    intro u i h
    simp only [OTree.ids, List.count_append]
    cases u with
    | nil =>
      simp only [OTree.at] at h
      subst h
      simp
    | cons b u =>
      cases b <;> simp only [OTree.at] at h
      · have := ihz h
        omega
      · have := iho h
        omega

theorem ids_at {t : OTree} : ∀ {i : Nat}, i ∈ t.ids → ∃ u, t.at u = some i := by
  induction t with
  | nil => intro i h; simp [OTree.ids] at h
  | node d net z o ihz iho =>
    intro i h
    simp only [OTree.ids, List.mem_append, Option.mem_toList] at h
    rcases h with (h | h) | h
    · exact ⟨[], h⟩
    · obtain ⟨u, hu⟩ := ihz h
      exact ⟨false :: u, hu⟩
    · obtain ⟨u, hu⟩ := iho h
      exact ⟨true :: u, hu⟩

theorem oAtPath_set (i : Nat) : ∀ (p : List Bool) (t : OTree) (b : Bool) (t' : OTree), oAtPath (oSetNode i) t p = .ok (b, t') →
    (∀ j, t'.ids.count j = t.ids.count j + if b then one i j else 0) ∧
    (∀ u, t'.at u = t.at u ∨ (u = p ∧ t'.at u = some i)) := by
  intro p
  induction p with
  | nil =>
    intro t b t' h
    cases t with
    | nil => simp [oAtPath] at h
    | node d net z o =>
      rw [oAtPath] at h
      cases net with
      | some k =>
        simp only [oSetNode, Except.ok.injEq, Prod.mk.injEq] at h
        obtain ⟨rfl, rfl⟩ := h
        exact ⟨fun j => by simp, fun u => Or.inl rfl⟩
      | none =>
        simp only [oSetNode, Except.ok.injEq, Prod.mk.injEq] at h
        obtain ⟨rfl, rfl⟩ := h
        refine ⟨fun j => ?_, fun u => ?_⟩
        · simp only [OTree.ids, Option.toList, List.count_append, List.count_cons, List.count_nil, one, if_true, beq_iff_eq]
          by_cases hj : j = i
          · subst hj; simp; omega
          · rw [if_neg hj, if_neg (fun h => hj h.symm)]
            omega
        · cases u with
          | nil => exact Or.inr ⟨rfl, rfl⟩
          | cons c u => cases c <;> exact Or.inl rfl
  | cons c p ih =>
    intro t b t' h
    cases t with
    | nil => simp [oAtPath] at h
    | node d net z o =>
      cases c
      · rw [oAtPath] at h
        split at h
        · cases h
        · rename_i a z' hz
          simp only [Except.ok.injEq, Prod.mk.injEq] at h
          obtain ⟨rfl, rfl⟩ := h
          obtain ⟨h1, h2⟩ := ih _ _ _ hz
          refine ⟨fun j => ?_, fun u => ?_⟩
          · have := h1 j
            rw [ids_getNode] at this
            simp only [OTree.ids, List.count_append]
            omega
          · cases u with
            | nil => exact Or.inl rfl
            | cons c u =>
              cases c
              · have := h2 u
                rw [at_getNode] at this
                simp only [OTree.at]
                rcases this with h3 | ⟨h3, h4⟩
                · exact Or.inl h3
                · exact Or.inr ⟨by rw [h3], h4⟩
              · exact Or.inl rfl
      · rw [oAtPath] at h
        split at h
        · cases h
        · rename_i a z' hz
          simp only [Except.ok.injEq, Prod.mk.injEq] at h
          obtain ⟨rfl, rfl⟩ := h
          obtain ⟨h1, h2⟩ := ih _ _ _ hz
          refine ⟨fun j => ?_, fun u => ?_⟩
          · have := h1 j
            rw [ids_getNode] at this
            simp only [OTree.ids, List.count_append]
            omega
          · cases u with
            | nil => exact Or.inl rfl
            | cons c u =>
              cases c
              · exact Or.inl rfl
              · have := h2 u
                rw [at_getNode] at this
                simp only [OTree.at]
                rcases this with h3 | ⟨h3, h4⟩
                · exact Or.inl h3
                · exact Or.inr ⟨by rw [h3], h4⟩

theorem clear_spec (d : Bool) (net : Option Nat) (z o : OTree) : ∃ d', oClearNode (.node d net z o) = (net, .node d' none z o) := by
  cases z with
  | nil =>
    cases o with
    | nil => exact ⟨true, rfl⟩
    | node _ _ _ _ => exact ⟨d, rfl⟩
  | node _ _ _ _ => exact ⟨d, rfl⟩

theorem oAtPath_clear : ∀ (p : List Bool) (t : OTree) (old : Option Nat) (t' : OTree), oAtPath oClearNode t p = .ok (old, t') →
    (∀ j, t.ids.count j = t'.ids.count j + if old = some j then 1 else 0) ∧
    (∀ u, t'.at u = t.at u ∨ t'.at u = none) := by
  intro p
  induction p with
  | nil =>
    intro t b t' h
    cases t with
    | nil => simp [oAtPath] at h
    | node d net z o =>
      rw [oAtPath] at h
      obtain ⟨d', hd⟩ := clear_spec d net z o
      rw [hd] at h
      simp only [Except.ok.injEq, Prod.mk.injEq] at h
      obtain ⟨rfl, rfl⟩ := h
      refine ⟨fun j => ?_, fun u => ?_⟩
      · simp only [OTree.ids, List.count_append]
        cases net with
        | none => simp
        | some k =>
          simp only [Option.toList, List.count_cons, List.count_nil, beq_iff_eq, Option.some.injEq]
          omega
      · cases u with
        | nil => exact Or.inr rfl
        | cons c u => cases c <;> exact Or.inl rfl
  | cons c p ih =>
    intro t b t' h
    cases t with
    | nil => simp [oAtPath] at h
    | node d net z o =>
      cases c
      · rw [oAtPath] at h
        split at h
        · cases h
        · rename_i a z' hz
          simp only [Except.ok.injEq, Prod.mk.injEq] at h
          obtain ⟨rfl, rfl⟩ := h
          obtain ⟨h1, h2⟩ := ih _ _ _ hz
          refine ⟨fun j => ?_, fun u => ?_⟩
          · have := h1 j
            rw [ids_getNode] at this
            simp only [OTree.ids, List.count_append]
            omega
          · cases u with
            | nil => exact Or.inl rfl
            | cons c u =>
              cases c
              · have := h2 u
                rw [at_getNode] at this
                exact this
              · exact Or.inl rfl
      · rw [oAtPath] at h
        split at h
        · cases h
        · rename_i a z' hz
          simp only [Except.ok.injEq, Prod.mk.injEq] at h
          obtain ⟨rfl, rfl⟩ := h
          obtain ⟨h1, h2⟩ := ih _ _ _ hz
          refine ⟨fun j => ?_, fun u => ?_⟩
          · have := h1 j
            rw [ids_getNode] at this
            simp only [OTree.ids, List.count_append]
            omega
          · cases u with
            | nil => exact Or.inl rfl
            | cons c u =>
              cases c
              · exact Or.inl rfl
              · have := h2 u
                rw [at_getNode] at this
                exact this

/-! ### The invariant -/

/-- Every object has as many references as the tree, the list and others (`ext`) hold; the networks
    of the tree are at their places. -/
structure St (ext : Nat → Nat) (c : LCtx) : Prop where
  live : ∀ i, refsOf c.heap i = c.tree.ids.count i + c.list.count i + ext i
  tree : ∀ u i, c.tree.at u = some i → ∃ n, netAt c.heap i = some n ∧ Block n ∧ path n = u
  blocks : ∀ i n, netAt c.heap i = some n → Block n

theorem refs_net {h : Heap} {i : Nat} (hi : 0 < refsOf h i) : ∃ n, netAt h i = some n := by
  unfold refsOf at hi
  unfold netAt
  cases e : h[i]? with
  | none => rw [e] at hi; simp at hi
  | some p => exact ⟨p.1, rfl⟩

theorem St.list {ext : Nat → Nat} {c : LCtx} (hs : St ext c) (i : Nat) (hi : i ∈ c.list) : ∃ n, netAt c.heap i = some n ∧ Block n := by
  have h : 0 < refsOf c.heap i := by
    have := hs.live i
    have := List.count_pos_iff.mpr hi
    omega
  obtain ⟨n, hn⟩ := refs_net h
  exact ⟨n, hn, hs.blocks i n hn⟩

/-- What stays: contents, and the places of objects except for removals and places in `S`. -/
def Kept (S : List Bool → Prop) (c c' : LCtx) : Prop :=
  (∀ i x, netAt c.heap i = some x → netAt c'.heap i = some x) ∧
  ∀ u, c'.tree.at u = c.tree.at u ∨ c'.tree.at u = none ∨ S u

theorem Kept.refl (p : List Bool → Prop) (c : LCtx) : Kept p c c := ⟨fun _ _ h => h, fun _ => Or.inl rfl⟩

theorem Kept.trans {p q : List Bool → Prop} {a b c : LCtx} (hq : ∀ u, q u → p u) (h1 : Kept p a b) (h2 : Kept q b c) : Kept p a c := by
  refine ⟨fun i x h => h2.1 i x (h1.1 i x h), fun u => ?_⟩
  rcases h2.2 u with h | h | h
  · rw [h]
    exact h1.2 u
  · exact Or.inr (Or.inl h)
  · exact Or.inr (Or.inr (hq u h))

theorem kept_heap {S : List Bool → Prop} {c : LCtx} {h : Heap} (hh : ∀ j, netAt h j = netAt c.heap j) : Kept S c { c with heap := h } :=
  ⟨fun j x hx => by simp only [hh]; exact hx, fun _ => Or.inl rfl⟩

/-- Another reference. -/
def plus (ext : Nat → Nat) (i : Nat) : Nat → Nat := fun j => ext j + one i j

theorem St.ref {ext : Nat → Nat} {c : LCtx} (hs : St ext c) {i : Nat} (hi : 0 < refsOf c.heap i) :
    Safe (ref c.heap i) (fun h => St (plus ext i) { c with heap := h } ∧ ∀ j, netAt h j = netAt c.heap j) := by
  refine (ref_spec hi).mono ?_
  rintro h ⟨h1, h2⟩
  refine ⟨⟨fun j => ?_, fun u j hu => ?_, fun j x hx => ?_⟩, h2⟩
  · have := hs.live j
    have := h1 j
    simp only [plus]
    omega
  · simp only [h2]
    exact hs.tree u j hu
  · exact hs.blocks j x (by simpa only [h2] using hx)

theorem St.unref {ext : Nat → Nat} {i : Nat} {c : LCtx} (hs : St (plus ext i) c) :
    Safe (unref c.heap i) (fun h => St ext { c with heap := h } ∧ ∀ j, netAt h j = netAt c.heap j) := by
  have hi : 0 < refsOf c.heap i := by
    have := hs.live i
    simp only [plus, one, if_true] at this
    omega
  refine (unref_spec hi).mono ?_
  rintro h ⟨h1, h2⟩
  refine ⟨⟨fun j => ?_, fun u j hu => ?_, fun j x hx => ?_⟩, h2⟩
  · have a := hs.live j
    have b := h1 j
    simp only [plus] at a ⊢
    omega
  · simp only [h2]
    exact hs.tree u j hu
  · exact hs.blocks j x (by simpa only [h2] using hx)

theorem mapM_safe {h : Heap} : ∀ {l : List Nat}, (∀ i ∈ l, 0 < refsOf h i) → Safe (l.mapM (deref h)) (fun ns => ns.length = l.length) := by
  intro l
  induction l with
  | nil => intro _; exact rfl
  | cons i l ih =>
    intro hl
    rw [List.mapM_cons]
    refine (deref_spec (hl i (by simp))).bind fun n _ => ?_
    refine (ih (fun j hj => hl j (by simp [hj]))).bind fun ns hns => ?_
    show (n :: ns).length = _
    simp [hns]

theorem find_safe {ext : Nat → Nat} {c : LCtx} (hs : St ext c) {i : Nat} (hi : 0 < refsOf c.heap i) :
    Safe (oFind c.heap c.list i) (fun _ => True) := by
  unfold oFind
  refine (deref_spec hi).bind fun n _ => ?_
  refine (mapM_safe fun j hj => ?_).bind fun ns _ => safe_lift fun _ _ => trivial
  have := hs.live j
  have := List.count_pos_iff.mpr hj
  omega

theorem push_safe {ext : Nat → Nat} {c : LCtx} (hs : St ext c) {i : Nat} (hi : 0 < refsOf c.heap i) {n : Network}
    (hn : netAt c.heap i = some n) (hb : Block n) (p : List Bool → Prop) :
    Safe (oPush c i) (fun c' => St ext c' ∧ Kept p c c' ∧ c'.tree = c.tree) := by
  unfold oPush
  refine (find_safe hs hi).bind fun r _ => ?_
  obtain ⟨index, found⟩ := r
  simp only
  split
  · exact ⟨hs, Kept.refl p c, rfl⟩
  · split
    · trivial
    · rename_i hidx
      refine (hs.ref hi).bind ?_
      rintro h ⟨h1, h2⟩
      refine ⟨⟨fun j => ?_, fun u j hu => ?_, fun j x hx => ?_⟩, ⟨fun j x hx => ?_, fun u => Or.inl rfl⟩, rfl⟩
      · have a := h1.live j
        have e : (c.list.take index.toNat ++ i :: c.list.drop index.toNat).count j = c.list.count j + one i j := by
          rw [List.count_append, List.count_cons]
          have := congrArg (List.count j) (List.take_append_drop index.toNat c.list)
          rw [List.count_append] at this
          unfold one
          by_cases hj : j = i
          · rw [if_pos hj, if_pos (by simp [hj])]
            omega
          · rw [if_neg hj, if_neg (by simp only [beq_iff_eq]; exact fun h => hj h.symm)]
            omega
        simp only [plus] at a ⊢
        omega
      · exact h1.tree u j hu
      · exact h1.blocks j x hx
      · rw [h2]
        exact hx

theorem remove_safe {ext : Nat → Nat} {c : LCtx} (hs : St ext c) {i : Nat} (hi : 0 < refsOf c.heap i) (p : List Bool → Prop) :
    Safe (oRemove c i) (fun c' => St ext c' ∧ Kept p c c' ∧ c'.tree = c.tree) := by
  unfold oRemove
  refine (find_safe hs hi).bind fun r _ => ?_
  obtain ⟨index, found⟩ := r
  simp only
  split
  · exact ⟨hs, Kept.refl p c, rfl⟩
  · split
    · trivial
    · cases hj : c.list[index.toNat]? with
      | none => trivial
      | some j =>
        simp only
        have hmem : j ∈ c.list := List.mem_of_getElem? hj
        have hc : ∀ k, c.list.count k = (c.list.eraseIdx index.toNat).count k + one j k := by
          intro k
          obtain ⟨hl, hjl⟩ := List.getElem?_eq_some_iff.mp hj
          have h1 := (List.getElem_cons_eraseIdx_perm hl).count_eq k
          rw [List.count_cons, hjl] at h1
          unfold one
          by_cases hk : k = j
          · rw [if_pos hk]
            rw [if_pos (by simp [hk])] at h1
            omega
          · rw [if_neg hk]
            rw [if_neg (by simp only [beq_iff_eq]; exact fun h => hk h.symm)] at h1
            omega
        have hs2 : St (plus ext j) { c with list := c.list.eraseIdx index.toNat } := by
          refine ⟨fun k => ?_, hs.tree, hs.blocks⟩
          have a := hs.live k
          have b := hc k
          simp only [plus]
          omega
        refine hs2.unref.bind ?_
        rintro h ⟨h1, h2⟩
        refine ⟨h1, ⟨fun k x hx => ?_, fun u => Or.inl rfl⟩, rfl⟩
        simp only [h2]
        exact hx

theorem removeLonger_safe (p : Nat) : ∀ (l : List Nat) (h : Heap) (base : Nat → Nat), (∀ j, refsOf h j = base j + l.count j) →
    Safe (oRemoveLonger p h l) (fun r => (∀ j, refsOf r.1 j = base j + r.2.count j) ∧ (∀ j, netAt r.1 j = netAt h j) ∧ ∀ j ∈ r.2, j ∈ l) := by
  intro l
  induction l with
  | nil =>
    intro h base hb
    exact ⟨hb, fun _ => rfl, fun _ h => h⟩
  | cons i l ih =>
    intro h base hb
    rw [oRemoveLonger]
    have hi : 0 < refsOf h i := by
      have := hb i
      rw [List.count_cons_self] at this
      omega
    have hcc : ∀ j, (i :: l).count j = l.count j + one i j := by
      intro j
      rw [List.count_cons]
      unfold one
      by_cases hj : j = i
      · rw [if_pos hj, if_pos (by simp [hj])]
      · rw [if_neg hj, if_neg (by simp only [beq_iff_eq]; exact fun h => hj h.symm)]
    refine (deref_spec hi).bind fun n _ => ?_
    split
    · refine (unref_spec hi).bind ?_
      rintro h' ⟨h1, h2⟩
      refine (ih h' base ?_).mono ?_
      · intro j
        have a := hb j
        have b := h1 j
        rw [hcc] at a
        omega
      · rintro r ⟨r1, r2, r3⟩
        exact ⟨r1, fun j => (r2 j).trans (h2 j), fun j hj => List.mem_cons_of_mem _ (r3 j hj)⟩
    · refine (ih h (fun j => base j + one i j) ?_).bind ?_
      · intro j
        have a := hb j
        rw [hcc] at a
        omega
      · rintro ⟨h', l'⟩ ⟨r1, r2, r3⟩
        refine ⟨fun j => ?_, r2, fun j hj => ?_⟩
        · have a := r1 j
          have e : (i :: l').count j = l'.count j + one i j := by
            rw [List.count_cons]
            unfold one
            by_cases hj : j = i
            · rw [if_pos hj, if_pos (by simp [hj])]
            · rw [if_neg hj, if_neg (by simp only [beq_iff_eq]; exact fun h => hj h.symm)]
          simp only at a ⊢
          omega
        · rcases List.mem_cons.mp hj with rfl | hj
          · exact List.mem_cons_self
          · exact List.mem_cons_of_mem _ (r3 j hj)

theorem St.removeLonger {ext : Nat → Nat} {c : LCtx} (hs : St ext c) (k : Nat) (p : List Bool → Prop) :
    Safe (oRemoveLonger k c.heap c.list) (fun r => St ext { c with heap := r.1, list := r.2 } ∧ Kept p c { c with heap := r.1, list := r.2 }) := by
  refine (removeLonger_safe k c.list c.heap (fun j => c.tree.ids.count j + ext j) ?_).mono ?_
  · intro j
    have := hs.live j
    omega
  · rintro ⟨h, l⟩ ⟨r1, r2, r3⟩
    simp only at r1 r2 r3 ⊢
    refine ⟨⟨fun j => ?_, fun u j hu => ?_, fun j x hx => ?_⟩, ⟨fun j x hx => ?_, fun u => Or.inl rfl⟩⟩
    · have := r1 j
      simp only
      omega
    · simp only [r2]
      exact hs.tree u j hu
    · exact hs.blocks j x (by simpa only [r2] using hx)
    · simp only [r2]
      exact hx

theorem add_safe {ext : Nat → Nat} {c : LCtx} (hs : St ext c) {i : Nat} (hi : 0 < refsOf c.heap i) {n : Network}
    (hn : netAt c.heap i = some n) (hb : Block n) {p : List Bool → Prop} (hp : p (path n)) :
    Safe (oAdd c i) (fun r => St ext r.2 ∧ Kept p c r.2 ∧ r.2.list = c.list) := by
  unfold oAdd
  refine (deref_spec hi).bind fun n' hn' => ?_
  rw [hn] at hn'
  cases hn'
  refine (safe_lift (P := fun r => (∀ j, r.2.ids.count j = c.tree.ids.count j + if r.1 then one i j else 0) ∧
    (∀ u, r.2.at u = c.tree.at u ∨ (u = netBits n ∧ r.2.at u = some i))) (fun a ha => oAtPath_set i _ _ _ _ ha)).bind ?_
  rintro ⟨free, t⟩ ⟨h1, h2⟩
  simp only at h1 h2 ⊢
  rw [netBits_eq hb] at h2
  have key : ∀ h : Heap, (∀ j, netAt h j = netAt c.heap j) → Kept p c { c with heap := h, tree := t } := by
    intro h hh
    refine ⟨fun j x hx => by simp only [hh]; exact hx, fun u => ?_⟩
    rcases h2 u with h3 | ⟨h3, -⟩
    · exact Or.inl h3
    · rw [h3]
      exact Or.inr (Or.inr hp)
  have key2 : ∀ u j, t.at u = some j → ∃ n, netAt c.heap j = some n ∧ Block n ∧ path n = u := by
    intro u j hu
    rcases h2 u with h3 | ⟨h3, h4⟩
    · rw [h3] at hu
      exact hs.tree u j hu
    · rw [h4] at hu
      cases hu
      exact ⟨n, hn, hb, h3.symm⟩
  cases free with
  | true =>
    simp only [if_true]
    refine (ref_spec hi).bind ?_
    rintro h ⟨h3, h4⟩
    refine ⟨⟨fun j => ?_, fun u j hu => ?_, fun j x hx => ?_⟩, key h h4, rfl⟩
    · have a := hs.live j
      have b := h1 j
      have d := h3 j
      simp only [if_true] at b ⊢
      omega
    · simp only [h4]
      exact key2 u j hu
    · exact hs.blocks j x (by simpa only [h4] using hx)
  | false =>
    simp only [Bool.false_eq_true, if_false]
    refine ⟨⟨fun j => ?_, key2, hs.blocks⟩, key c.heap (fun _ => rfl), rfl⟩
    have a := hs.live j
    have b := h1 j
    simp only [Bool.false_eq_true, if_false] at b ⊢
    omega

theorem delete_safe {ext : Nat → Nat} {c : LCtx} (hs : St ext c) {i : Nat} (hi : 0 < refsOf c.heap i) (p : List Bool → Prop) :
    Safe (oDelete c i) (fun c' => St ext c' ∧ Kept p c c') := by
  unfold oDelete
  refine (deref_spec hi).bind fun n hn => ?_
  refine (safe_lift (P := fun r => (∀ j, c.tree.ids.count j = r.2.ids.count j + if r.1 = some j then 1 else 0) ∧
    (∀ u, r.2.at u = c.tree.at u ∨ r.2.at u = none)) (fun a ha => oAtPath_clear _ _ _ _ ha)).bind ?_
  rintro ⟨old, t⟩ ⟨h1, h2⟩
  simp only at h1 h2 ⊢
  have key2 : ∀ u j, t.at u = some j → ∃ n, netAt c.heap j = some n ∧ Block n ∧ path n = u := by
    intro u j hu
    rcases h2 u with h3 | h3
    · rw [h3] at hu
      exact hs.tree u j hu
    · rw [h3] at hu
      cases hu
  have key : ∀ h : Heap, (∀ j, netAt h j = netAt c.heap j) → Kept p c { c with heap := h, tree := t } := by
    intro h hh
    refine ⟨fun j x hx => by simp only [hh]; exact hx, fun u => ?_⟩
    rcases h2 u with h3 | h3
    · exact Or.inl h3
    · exact Or.inr (Or.inl h3)
  cases old with
  | none =>
    refine ⟨⟨fun j => ?_, key2, hs.blocks⟩, key c.heap (fun _ => rfl)⟩
    have a := hs.live j
    have b := h1 j
    simp only [reduceCtorEq, if_false] at b ⊢
    omega
  | some k =>
    simp only
    have hs2 : St (plus ext k) { c with tree := t } := by
      refine ⟨fun j => ?_, key2, hs.blocks⟩
      have a := hs.live j
      have b := h1 j
      simp only [Option.some.injEq] at b
      simp only [plus, one]
      by_cases hj : j = k
      · rw [if_pos hj]
        rw [if_pos hj.symm] at b
        omega
      · rw [if_neg hj]
        rw [if_neg (fun h => hj h.symm)] at b
        omega
    refine hs2.unref.bind ?_
    rintro h ⟨h3, h4⟩
    exact ⟨h3, key h h4⟩

/-! ### Walks -/

theorem sub_at : ∀ (w : List Bool) (t : OTree), t.at w = match t.sub w with | .nil => none | .node _ net _ _ => net := by
  intro w
  induction w with
  | nil => intro t; cases t <;> rfl
  | cons b w ih =>
    intro t
    cases t with
    | nil => rfl
    | node d net z o =>
      cases b
      · simpa [OTree.at, OTree.sub] using ih z
      · simpa [OTree.at, OTree.sub] using ih o

/-- What a walk below `w` leaves alone. -/
def Below (R : List Bool → List Bool → Prop) (w : List Bool) (c c' : LCtx) : Prop :=
  Kept (fun u => ∃ v, w <+: v ∧ R v u) c c'

/-- Strict prefixes. -/
def Strict (v u : List Bool) : Prop := u <+: v ∧ u ≠ v

theorem prefix_bit {w v x : List Bool} {a b : Bool} (h1 : w ++ [a] <+: v) (h2 : w ++ b :: x <+: v) : a = b := by
  obtain ⟨s, hs⟩ := h1
  obtain ⟨r, hr⟩ := h2
  rw [← hr] at hs
  rw [List.append_assoc, List.append_assoc] at hs
  have := List.append_cancel_left hs
  simp only [List.cons_append, List.cons.injEq] at this
  exact this.1

theorem walk_safe {ext : Nat → Nat} {Q : Nat → Prop} {R : List Bool → List Bool → Prop} (hR : ∀ v u, R v u → Strict v u)
    {filter : Nat → LCtx → LRes Bool} {callback : Nat → LCtx → LRes LCtx}
    (hf : ∀ i c, St ext c → 0 < refsOf c.heap i → Safe (filter i c) (fun _ => True))
    (hc : ∀ i c w, St ext c → Q i → c.tree.at w = some i → Safe (callback i c) (fun c' => St ext c' ∧ Kept (R w) c c')) :
    ∀ (fuel : Nat) (w : List Bool) (c : LCtx), St ext c → (∀ u i, c.tree.at (w ++ u) = some i → Q i) →
      Safe (oWalk filter callback fuel w c) (fun c' => St ext c' ∧ Below R w c c') := by
  intro fuel
  induction fuel with
  | zero => intro w c hs hq; trivial
  | succ fuel ih =>
    intro w c hs hq
    -- the two subtrees
    have hrest : ∀ c1, St ext c1 → Kept (R w) c c1 →
        Safe (do
          let c ← (if ((c1.tree.sub w).sub [false]).isNil then .ok c1 else oWalk filter callback fuel (w ++ [false]) c1)
          if ((c.tree.sub w).sub [true]).isNil then .ok c else oWalk filter callback fuel (w ++ [true]) c)
          (fun c' => St ext c' ∧ Below R w c c') := by
      intro c1 hs1 hk
      have hq1 : ∀ b u i, c1.tree.at (w ++ b :: u) = some i → Q i := by
        intro b u i hi
        rcases hk.2 (w ++ b :: u) with h | h | h
        · rw [h] at hi
          exact hq _ i hi
        · rw [h] at hi
          cases hi
        · have := (hR _ _ h).1.length_le
          simp at this
      have h0 : Safe (if ((c1.tree.sub w).sub [false]).isNil then .ok c1 else oWalk filter callback fuel (w ++ [false]) c1)
          (fun c' => St ext c' ∧ Below R (w ++ [false]) c1 c') := by
        split
        · exact ⟨hs1, Kept.refl _ _⟩
        · refine ih _ _ hs1 fun u i hi => hq1 false u i ?_
          simpa using hi
      refine h0.bind ?_
      rintro c2 ⟨hs2, hb2⟩
      have h1 : Safe (if ((c2.tree.sub w).sub [true]).isNil then .ok c2 else oWalk filter callback fuel (w ++ [true]) c2)
          (fun c' => St ext c' ∧ Below R (w ++ [true]) c2 c') := by
        split
        · exact ⟨hs2, Kept.refl _ _⟩
        · refine ih _ _ hs2 fun u i hi => ?_
          rw [List.append_assoc] at hi
          rcases hb2.2 (w ++ ([true] ++ u)) with h | h | ⟨v, h, h3⟩
          · rw [h] at hi
            exact hq1 true u i hi
          · rw [h] at hi
            cases hi
          · have := prefix_bit h (hR _ _ h3).1
            cases this
      refine h1.mono ?_
      rintro c3 ⟨hs3, hb3⟩
      refine ⟨hs3, ?_⟩
      have e1 : Below R w c c1 := Kept.trans (p := fun u => ∃ v, w <+: v ∧ R v u) (q := R w)
        (fun u h => ⟨w, List.prefix_rfl, h⟩) (Kept.refl _ _) hk
      have e2 : Below R w c c2 := Kept.trans (fun u ⟨v, h1, h2⟩ => ⟨v, (List.prefix_append _ _).trans h1, h2⟩) e1 hb2
      exact Kept.trans (fun u ⟨v, h1, h2⟩ => ⟨v, (List.prefix_append _ _).trans h1, h2⟩) e2 hb3
    rw [oWalk]
    have hat := sub_at w c.tree
    cases e : c.tree.sub w with
    | nil => trivial
    | node d net z o =>
      rw [e] at hat
      cases d with
      | true => exact ⟨hs, Kept.refl _ _⟩
      | false =>
        simp only at hat ⊢
        cases net with
        | none => exact hrest c hs (Kept.refl _ _)
        | some i =>
          have hi : 0 < refsOf c.heap i := by
            have a := hs.live i
            have b := at_count hat
            omega
          simp only
          have hqi : Q i := hq [] i (by simpa using hat)
          have hm : Safe (do if (← filter i c) then return none else return some (← callback i c) : LRes (Option LCtx))
              (fun r => match r with
                | none => True
                | some c' => St ext c' ∧ Kept (R w) c c') := by
            refine (hf i c hs hi).bind fun b _ => ?_
            split
            · trivial
            · exact (hc i c w hs hqi hat).bind fun c' h => h
          refine hm.bind fun r hr => ?_
          cases r with
          | none => exact ⟨hs, Kept.refl _ _⟩
          | some c1 => exact hrest c1 hr.1 hr.2

theorem unrefAll_safe : ∀ (l : List Nat) (h : Heap) (base : Nat → Nat), (∀ j, refsOf h j = base j + l.count j) →
    Safe (unrefAll h l) (fun h' => (∀ j, refsOf h' j = base j) ∧ ∀ j, netAt h' j = netAt h j) := by
  intro l
  induction l with
  | nil =>
    intro h base hb
    exact ⟨fun j => by rw [hb j]; rfl, fun _ => rfl⟩
  | cons i l ih =>
    intro h base hb
    rw [unrefAll]
    have hi : 0 < refsOf h i := by
      have := hb i
      rw [List.count_cons_self] at this
      omega
    refine (unref_spec hi).bind ?_
    rintro h' ⟨h1, h2⟩
    refine (ih h' base ?_).mono ?_
    · intro j
      have a := hb j
      have b := h1 j
      rw [List.count_cons] at a
      unfold one at b
      by_cases hj : j = i
      · rw [if_pos (by simp [hj])] at a
        rw [if_pos hj] at b
        omega
      · rw [if_neg (by simp only [beq_iff_eq]; exact fun h => hj h.symm)] at a
        rw [if_neg hj] at b
        omega
    · rintro h'' ⟨r1, r2⟩
      exact ⟨r1, fun j => (r2 j).trans (h2 j)⟩

theorem St.clear {ext : Nat → Nat} {c : LCtx} (hs : St ext c) :
    Safe (unrefAll c.heap c.list) (fun h => St ext ⟨h, c.tree, []⟩ ∧ ∀ j, netAt h j = netAt c.heap j) := by
  refine (unrefAll_safe c.list c.heap (fun j => c.tree.ids.count j + ext j) ?_).mono ?_
  · intro j
    have := hs.live j
    omega
  · rintro h ⟨h1, h2⟩
    refine ⟨⟨fun j => ?_, fun u j hu => ?_, fun j x hx => hs.blocks j x (by simpa only [h2] using hx)⟩, h2⟩
    · have := h1 j
      simp only [List.count_nil]
      omega
    · simp only [h2]
      exact hs.tree u j hu

/-! ### Removing duplicates -/

def Nowhere (_ : List Bool) : Prop := False

theorem dedupLoop_safe {ext : Nat → Nat} {network : Nat} {w : List Bool} : ∀ (k : Nat) (c : LCtx), St ext c →
    c.tree.at w = some network → Safe (oDedupLoop network k c) (fun c' => St ext c' ∧ Kept Nowhere c c') := by
  intro k
  induction k with
  | zero =>
    intro c hs hw
    rw [oDedupLoop]
    obtain ⟨n, hn, hb, -⟩ := hs.tree w network hw
    have hi : 0 < refsOf c.heap network := by
      have a := hs.live network
      have b := at_count hw
      omega
    exact (push_safe hs hi hn hb _).mono fun _ h => ⟨h.1, h.2.1⟩
  | succ k ih =>
    intro c hs hw
    rw [oDedupLoop]
    cases e : c.list[k]? with
    | none => trivial
    | some n =>
      simp only
      have hnl : n ∈ c.list := List.mem_of_getElem? e
      have hrn : 0 < refsOf c.heap n := by
        have a := hs.live n
        have b := List.count_pos_iff.mpr hnl
        omega
      refine (hs.ref hrn).bind ?_
      rintro h ⟨hs1, hsame⟩
      have hrn1 : 0 < refsOf h n := by
        have a := hs1.live n
        simp only [plus, one, if_true] at a
        omega
      have hi1 : 0 < refsOf h network := by
        have a := hs1.live network
        have b := at_count hw
        simp only at a
        omega
      have hk1 : Kept Nowhere c { c with heap := h } := kept_heap hsame
      refine (deref_spec hrn1).bind fun x _ => ?_
      refine (deref_spec hi1).bind fun y hy => ?_
      obtain ⟨y', hy', hby, -⟩ := hs1.tree w network hw
      split
      · split
        · refine (delete_safe hs1 hi1 Nowhere).bind ?_
          rintro c2 ⟨hs2, hk2⟩
          refine hs2.unref.bind ?_
          rintro h3 ⟨hs3, hsame3⟩
          exact ⟨hs3, (hk1.trans (fun _ h => h) hk2).trans (fun _ h => h) (kept_heap hsame3)⟩
        · refine (push_safe hs1 hi1 hy' hby Nowhere).bind ?_
          rintro c2 ⟨hs2, hk2, -⟩
          refine hs2.unref.bind ?_
          rintro h3 ⟨hs3, hsame3⟩
          exact ⟨hs3, (hk1.trans (fun _ h => h) hk2).trans (fun _ h => h) (kept_heap hsame3)⟩
      · refine (remove_safe hs1 hrn1 Nowhere).bind ?_
        rintro c2 ⟨hs2, hk2, ht2⟩
        refine hs2.unref.bind ?_
        rintro h3 ⟨hs3, hsame3⟩
        have hk3 : Kept Nowhere c { c2 with heap := h3 } :=
          (hk1.trans (fun _ h => h) hk2).trans (fun _ h => h) (kept_heap hsame3)
        refine (ih _ hs3 ?_).mono ?_
        · simp only [ht2]
          exact hw
        · rintro c4 ⟨hs4, hk4⟩
          exact ⟨hs4, hk3.trans (fun _ h => h) hk4⟩

theorem dedupOne_safe {ext : Nat → Nat} (family : Family) {h : Heap} {t : OTree} (hs : St ext ⟨h, t, []⟩) :
    Safe (oDedupOne family h t) (fun r => St ext ⟨r.1, r.2, []⟩ ∧ ∀ u i, r.2.at u = some i → t.at u = some i) := by
  unfold oDedupOne
  refine (walk_safe (ext := ext) (Q := fun _ => True) (R := fun _ => Nowhere) (fun _ _ h => h.elim) ?_ ?_ _ _ _ hs (fun _ _ _ => trivial)).bind ?_
  · intro i c hc hi
    exact (deref_spec hi).bind fun _ _ => trivial
  · intro i c w hc _ hw
    exact dedupLoop_safe _ c hc hw
  · rintro c ⟨hc, hk⟩
    refine hc.clear.bind ?_
    rintro h' ⟨h1, h2⟩
    refine ⟨h1, fun u i hi => ?_⟩
    rcases hk.2 u with h | h | ⟨_, _, h⟩
    · rw [← h]
      exact hi
    · simp only at hi
      rw [h] at hi
      cases hi
    · exact h.elim

/-! ### Merging -/

theorem mergeLoop_safe {ctz0 : Nat} (h0 : 8 ≤ ctz0) {step : Nat → LCtx → LRes LCtx}
    (hstep : ∀ (ext : Nat → Nat) m c mm, St ext c → 1 ≤ ext m → netAt c.heap m = some mm → Block mm →
      Safe (step m c) (fun c' => St ext c' ∧ Kept (Strict (path mm)) c c'))
    {ext : Nat → Nat} {network : Nat} {n : Network} (he : 1 ≤ ext network) (hb : Block n) :
    ∀ (k : Nat) (c : LCtx), St ext c → netAt c.heap network = some n →
      Safe (oMergeLoop ctz0 step network k c) (fun r => match r with
        | .exhausted c' => St ext c' ∧ Kept (Strict (path n)) c c'
        | .merged x c' => St (plus ext x) c' ∧ Kept (Strict (path n)) c c'
        | .busy c' => St ext c' ∧ Kept (Strict (path n)) c c') := by
  intro k
  induction k with
  | zero => intro c hs hn; exact ⟨hs, Kept.refl _ _⟩
  | succ k ih =>
    intro c hs hn
    rw [oMergeLoop]
    cases e : c.list[k]? with
    | none => trivial
    | some i =>
      simp only
      have hil : i ∈ c.list := List.mem_of_getElem? e
      have hri : 0 < refsOf c.heap i := by
        have a := hs.live i
        have b := List.count_pos_iff.mpr hil
        omega
      refine (hs.ref hri).bind ?_
      rintro h ⟨hs1, hsame⟩
      have hri1 : 0 < refsOf h i := by
        have a := hs1.live i
        simp only [plus, one, if_true] at a
        omega
      have hrn1 : 0 < refsOf h network := by
        have a := hs1.live network
        simp only [plus] at a
        omega
      have hk1 : Kept (Strict (path n)) c { c with heap := h } := kept_heap hsame
      have hn1 : netAt h network = some n := by rw [hsame]; exact hn
      refine (deref_spec hri1).bind fun x hx => ?_
      refine (deref_spec hrn1).bind fun y hy => ?_
      rw [hn1] at hy
      cases hy
      have hbx : Block x := by
        obtain ⟨x', hx', hbx'⟩ := hs1.list i hil
        simp only at hx'
        rw [hx] at hx'
        cases hx'
        exact hbx'
      rcases mergeNetworks_spec ctz0 h0 hbx hb with ⟨w, mm, hw, -, hm, hbm, hpm, -⟩ | ⟨-, hm⟩
      · rw [hm]
        have hpre : Strict (path n) (path mm) := by
          rw [hpm, hw.2.1]
          refine ⟨List.prefix_append _ _, fun h => ?_⟩
          have := congrArg List.length h
          simp at this
        show Safe (do
          let (free, c) ← oAdd { c with heap := (alloc h mm).1 } (alloc h mm).2
          if free then
            let c ← oDelete c network
            let c ← oDelete c i
            let c ← oPush c (alloc h mm).2
            let c ← oRemove c i
            let c ← step (alloc h mm).2 c
            let h ← unref c.heap (alloc h mm).2
            return LOut.merged i { c with heap := h }
          else
            let h ← unref c.heap (alloc h mm).2
            let h ← unref h i
            return LOut.busy { c with heap := h }) _
        obtain ⟨a1, a2, a3⟩ := alloc_spec h mm
        have a4 := alloc_inv h mm
        generalize (alloc h mm).1 = hh at a1 a2 a3 a4 ⊢
        generalize (alloc h mm).2 = m at a1 a2 a3 a4 ⊢
        have hs2 : St (plus (plus ext i) m) { c with heap := hh } := by
          refine ⟨fun j => ?_, fun u j hu => ?_, fun j x' hx' => ?_⟩
          · have p1 := hs1.live j
            have p2 := a1 j
            simp only [plus] at p1 p2 ⊢
            omega
          · obtain ⟨x', h1, h2⟩ := hs1.tree u j hu
            exact ⟨x', a3 j x' h1, h2⟩
          · rcases a4 j x' hx' with ⟨-, rfl⟩ | h1
            · exact hbm
            · exact hs1.blocks j x' h1
        have hk2 : Kept (Strict (path n)) c { c with heap := hh } :=
          hk1.trans (fun _ h => h) ⟨fun j x' hx' => a3 j x' hx', fun _ => Or.inl rfl⟩
        have alive : ∀ {c' : LCtx}, St (plus (plus ext i) m) c' → 0 < refsOf c'.heap network ∧ 0 < refsOf c'.heap i ∧ 0 < refsOf c'.heap m := by
          intro c' hc'
          have p1 := hc'.live network
          have p2 := hc'.live i
          have p3 := hc'.live m
          simp only [plus, one, if_true] at p1 p2 p3
          refine ⟨by omega, by omega, by omega⟩
        refine (add_safe (p := Strict (path n)) hs2 (alive hs2).2.2 a2 hbm hpre).bind ?_
        rintro ⟨free, c3⟩ ⟨hs3, hk3, -⟩
        simp only at hs3 hk3 ⊢
        have hm3 : ∀ {c'}, Kept (Strict (path n)) c3 c' → netAt c'.heap m = some mm :=
          fun hc' => hc'.1 m mm (hk3.1 m mm a2)
        have hk3 := hk2.trans (fun _ h => h) hk3
        cases free with
        | true =>
          simp only [if_true]
          refine (delete_safe hs3 (alive hs3).1 (Strict (path n))).bind ?_
          rintro c4 ⟨hs4, hk4⟩
          refine (delete_safe hs4 (alive hs4).2.1 (Strict (path n))).bind ?_
          rintro c5 ⟨hs5, hk5⟩
          have hk5 := hk4.trans (fun _ h => h) hk5
          refine (push_safe hs5 (alive hs5).2.2 (hm3 hk5) hbm (Strict (path n))).bind ?_
          rintro c6 ⟨hs6, hk6, -⟩
          have hk6 := hk5.trans (fun _ h => h) hk6
          refine (remove_safe hs6 (alive hs6).2.1 (Strict (path n))).bind ?_
          rintro c7 ⟨hs7, hk7, -⟩
          have hk7 := hk6.trans (fun _ h => h) hk7
          have hone : 1 ≤ plus (plus ext i) m m := by
            simp only [plus, one, if_true]
            omega
          refine (hstep _ m c7 mm hs7 hone (hm3 hk7) hbm).bind ?_
          rintro c8 ⟨hs8, hk8⟩
          have hsub : ∀ u, Strict (path mm) u → Strict (path n) u := by
            rintro u ⟨h1, h2⟩
            refine ⟨h1.trans hpre.1, fun h => ?_⟩
            rw [h] at h1
            exact hpre.2 (hpre.1.eq_of_length_le h1.length_le)
          have hk8 := hk7.trans hsub hk8
          refine hs8.unref.bind ?_
          rintro h9 ⟨hs9, hsame9⟩
          exact ⟨hs9, (hk3.trans (fun _ h => h) hk8).trans (fun _ h => h) (kept_heap hsame9)⟩
        | false =>
          simp only [Bool.false_eq_true, if_false]
          refine hs3.unref.bind ?_
          rintro h4 ⟨hs4, hsame4⟩
          refine (St.unref hs4).bind ?_
          rintro h5 ⟨hs5, hsame5⟩
          exact ⟨hs5, hk3.trans (fun _ h => h) (kept_heap fun j => (hsame5 j).trans (hsame4 j))⟩
      · rw [hm]
        show Safe (do
          let c ← oPush { c with heap := h } network
          let h ← unref c.heap i
          oMergeLoop ctz0 step network k { c with heap := h }) _
        refine (push_safe hs1 hrn1 hn1 hb (Strict (path n))).bind ?_
        rintro c2 ⟨hs2, hk2, -⟩
        refine hs2.unref.bind ?_
        rintro h3 ⟨hs3, hsame3⟩
        have hk3 : Kept (Strict (path n)) c { c2 with heap := h3 } :=
          (hk1.trans (fun _ h => h) hk2).trans (fun _ h => h) (kept_heap hsame3)
        refine (ih _ hs3 (hk3.1 _ _ hn)).mono ?_
        intro r hr
        cases r with
        | exhausted c' => exact ⟨hr.1, hk3.trans (fun _ h => h) hr.2⟩
        | merged x c' => exact ⟨hr.1, hk3.trans (fun _ h => h) hr.2⟩
        | busy c' => exact ⟨hr.1, hk3.trans (fun _ h => h) hr.2⟩

theorem mergeStep_safe {ctz0 : Nat} (h0 : 8 ≤ ctz0) : ∀ (fuel : Nat) (ext : Nat → Nat) (network : Nat) (c : LCtx) (n : Network),
    St ext c → 1 ≤ ext network → netAt c.heap network = some n → Block n →
    Safe (oMergeStep ctz0 fuel network c) (fun c' => St ext c' ∧ Kept (Strict (path n)) c c') := by
  intro fuel
  induction fuel with
  | zero => intro ext network c n hs he hn hb; trivial
  | succ fuel ih =>
    intro ext network c n hs he hn hb
    have alive : ∀ {c' : LCtx} {x : Nat}, St (plus ext x) c' → 0 < refsOf c'.heap network := by
      intro c' x hc'
      have p1 := hc'.live network
      simp only [plus] at p1
      omega
    have alive0 : ∀ {c' : LCtx}, St ext c' → 0 < refsOf c'.heap network := by
      intro c' hc'
      have p1 := hc'.live network
      omega
    rw [oMergeStep]
    split
    · exact (push_safe hs (alive0 hs) hn hb (Strict (path n))).mono fun _ h => ⟨h.1, h.2.1⟩
    · refine (mergeLoop_safe h0 ih he hb _ c hs hn).bind ?_
      intro r hr
      cases r with
      | exhausted c1 =>
        obtain ⟨hs1, hk1⟩ := hr
        refine (deref_spec (alive0 hs1)).bind fun y _ => ?_
        refine (hs1.removeLonger (netPrefix y) (Strict (path n))).bind ?_
        rintro ⟨h, l⟩ ⟨hs2, hk2⟩
        exact ⟨hs2, hk1.trans (fun _ h => h) hk2⟩
      | merged x c1 =>
        obtain ⟨hs1, hk1⟩ := hr
        refine (deref_spec (alive hs1)).bind fun y _ => ?_
        refine (hs1.removeLonger (netPrefix y) (Strict (path n))).bind ?_
        rintro ⟨h, l⟩ ⟨hs2, hk2⟩
        refine (St.unref hs2).bind ?_
        rintro h3 ⟨hs3, hsame⟩
        exact ⟨hs3, (hk1.trans (fun _ h => h) hk2).trans (fun _ h => h) (kept_heap hsame)⟩
      | busy c1 => exact hr

theorem merge_safe {ctz0 : Nat} (h0 : 8 ≤ ctz0) {ext : Nat → Nat} {h : Heap} {t : OTree} (hs : St ext ⟨h, t, []⟩)
    (he : ∀ u i, t.at u = some i → 1 ≤ ext i) :
    Safe (oMerge ctz0 h t) (fun r => St ext ⟨r.1, r.2, []⟩) := by
  unfold oMerge
  refine (walk_safe (ext := ext) (Q := fun i => 1 ≤ ext i) (R := Strict) (fun _ _ h => h) ?_ ?_ _ _ _ hs (fun u i hi => he _ i hi)).bind ?_
  · intro i c hc hi
    exact trivial
  · intro i c w hc hq hw
    obtain ⟨n, hn, hb, hp⟩ := hc.tree w i hw
    rw [← hp]
    exact mergeStep_safe h0 _ ext i c n hc hq hn hb
  · rintro c ⟨hc, hk⟩
    refine hc.clear.bind ?_
    rintro h' ⟨h1, h2⟩
    exact h1

/-! ### Removing deleted nodes -/

theorem prune_spec : ∀ (t : OTree) (r : Bool),
    (∀ j, t.ids.count j = (oPrune r t).2.1.ids.count j + (oPrune r t).2.2.count j) ∧
    (∀ u, (oPrune r t).2.1.at u = t.at u ∨ (oPrune r t).2.1.at u = none) := by
  intro t
  induction t with
  | nil => intro r; exact ⟨fun j => rfl, fun u => Or.inl rfl⟩
  | node d net z o ihz iho =>
    intro r
    cases d with
    | true =>
      refine ⟨fun j => ?_, fun u => Or.inr rfl⟩
      simp [oPrune, OTree.ids]
    | false =>
      obtain ⟨z1, z2⟩ := ihz false
      obtain ⟨o1, o2⟩ := iho false
      have hkeep : (∀ j, (OTree.node false net z o).ids.count j = (OTree.node false net (oPrune false z).2.1 (oPrune false o).2.1).ids.count j +
          ((oPrune false z).2.2 ++ (oPrune false o).2.2).count j) ∧
          (∀ u, (OTree.node false net (oPrune false z).2.1 (oPrune false o).2.1).at u = (OTree.node false net z o).at u ∨
            (OTree.node false net (oPrune false z).2.1 (oPrune false o).2.1).at u = none) := by
        refine ⟨fun j => ?_, fun u => ?_⟩
        · have a := z1 j
          have b := o1 j
          simp only [OTree.ids, List.count_append]
          omega
        · cases u with
          | nil => exact Or.inl rfl
          | cons b u =>
            cases b
            · exact z2 u
            · exact o2 u
      rw [oPrune]
      generalize oPrune false z = p at hkeep ⊢
      generalize oPrune false o = q at hkeep ⊢
      obtain ⟨r0, z', d0⟩ := p
      obtain ⟨r1, o', d1⟩ := q
      simp only at hkeep ⊢
      split
      · exact hkeep
      · split
        · exact hkeep
        · split
          · exact hkeep
          · refine ⟨fun j => ?_, fun u => Or.inr rfl⟩
            have := hkeep.1 j
            simp only [List.count_append] at this ⊢
            simp only [OTree.ids, List.count_nil, List.count_append] at this ⊢
            omega

theorem cleanup_safe {ctz0 : Nat} (h0 : 8 ≤ ctz0) {ext : Nat → Nat} {h : Heap} {t : OTree} (hs : St ext ⟨h, t, []⟩)
    (he : ∀ u i, t.at u = some i → 1 ≤ ext i) :
    Safe (oCleanup ctz0 h t) (fun r => St ext ⟨r.1, r.2, []⟩) := by
  unfold oCleanup
  refine (dedupOne_safe .inet6 hs).bind ?_
  rintro ⟨h1, t1⟩ ⟨hs1, ha1⟩
  refine (dedupOne_safe .inet hs1).bind ?_
  rintro ⟨h2, t2⟩ ⟨hs2, ha2⟩
  refine (merge_safe h0 hs2 fun u i hi => he u i (ha1 u i (ha2 u i hi))).bind ?_
  rintro ⟨h3, t3⟩ hs3
  obtain ⟨p1, p2⟩ := prune_spec t3 true
  simp only at hs3 ⊢
  refine (unrefAll_safe _ h3 (fun j => (oPrune true t3).2.1.ids.count j + ext j) ?_).bind ?_
  · intro j
    have a := hs3.live j
    have b := p1 j
    simp only [List.count_nil] at a
    omega
  · rintro h4 ⟨r1, r2⟩
    refine ⟨fun j => ?_, fun u j hu => ?_, fun j x hx => hs3.blocks j x (by simpa only [r2] using hx)⟩
    · rw [r1]
      simp only [List.count_nil]
      omega
    · simp only [r2]
      rcases p2 u with h | h
      · exact hs3.tree u j (h ▸ hu)
      · simp only at hu
        rw [h] at hu
        cases hu

theorem count_cons_one (i : Nat) (l : List Nat) (j : Nat) : (i :: l).count j = l.count j + one i j := by
  rw [List.count_cons]
  unfold one
  by_cases hj : j = i
  · rw [if_pos hj, if_pos (by simp [hj])]
  · rw [if_neg hj, if_neg (by simp only [beq_iff_eq]; exact fun h => hj h.symm)]

theorem enqueue_safe : ∀ (l : List Nat) (h : Heap), (∀ i ∈ l, 0 < refsOf h i) →
    Safe (oEnqueue h l) (fun h' => (∀ j, refsOf h' j = refsOf h j + l.count j) ∧ ∀ j, netAt h' j = netAt h j) := by
  intro l
  induction l with
  | nil => intro h _; exact ⟨fun j => rfl, fun _ => rfl⟩
  | cons i l ih =>
    intro h hl
    rw [oEnqueue]
    refine (ref_spec (hl i (by simp))).bind ?_
    rintro h1 ⟨a1, b1⟩
    refine (ref_spec (i := i) (by have := a1 i; unfold one at this; simp at this; omega)).bind ?_
    rintro h2 ⟨a2, b2⟩
    refine (unref_spec (i := i) (by have := a2 i; unfold one at this; simp at this; omega)).bind ?_
    rintro h3 ⟨a3, b3⟩
    have e : ∀ j, refsOf h3 j = refsOf h j + one i j := by
      intro j
      have := a1 j
      have := a2 j
      have := a3 j
      omega
    refine (ih h3 fun j hj => ?_).mono ?_
    · have := hl j (List.mem_cons_of_mem _ hj)
      have := e j
      omega
    · rintro h4 ⟨a4, b4⟩
      refine ⟨fun j => ?_, fun j => by rw [b4, b3, b2, b1]⟩
      have := a4 j
      have := e j
      rw [count_cons_one]
      omega

theorem dequeue_safe : ∀ (l : List Nat) (h : Heap) (base : Nat → Nat), (∀ j, refsOf h j = base j + l.count j) →
    Safe (oDequeue h l) (fun h' => (∀ j, refsOf h' j = base j) ∧ ∀ j, netAt h' j = netAt h j) := by
  intro l
  induction l with
  | nil => intro h base hb; exact ⟨fun j => by rw [hb j]; rfl, fun _ => rfl⟩
  | cons i l ih =>
    intro h base hb
    rw [oDequeue]
    have hi : 0 < refsOf h i := by
      have := hb i
      rw [List.count_cons_self] at this
      omega
    refine (deref_spec hi).bind fun _ _ => ?_
    refine (unref_spec hi).bind ?_
    rintro h' ⟨h1, h2⟩
    refine (ih h' base ?_).mono ?_
    · intro j
      have a := hb j
      have b := h1 j
      rw [count_cons_one] at a
      omega
    · rintro h'' ⟨r1, r2⟩
      exact ⟨r1, fun j => (r2 j).trans (h2 j)⟩

theorem write_safe {ctz0 : Nat} (h0 : 8 ≤ ctz0) {ext : Nat → Nat} {h : Heap} {t : OTree} (hs : St ext ⟨h, t, []⟩)
    (he : ∀ u i, t.at u = some i → 1 ≤ ext i) :
    Safe (oWriteNetworks ctz0 h t) (fun r => St ext ⟨r.1, r.2, []⟩) := by
  unfold oWriteNetworks
  refine (cleanup_safe h0 hs he).bind ?_
  rintro ⟨h1, t1⟩ hs1
  simp only at hs1 ⊢
  refine (enqueue_safe t1.ids h1 fun i hi => ?_).bind ?_
  · have := hs1.live i
    have := List.count_pos_iff.mpr hi
    simp only at *
    omega
  rintro h2 ⟨a2, b2⟩
  refine (dequeue_safe t1.ids h2 (fun j => refsOf h1 j) fun j => ?_).bind ?_
  · exact a2 j
  rintro h3 ⟨a3, b3⟩
  refine ⟨fun j => ?_, fun u j hu => ?_, fun j x hx => hs1.blocks j x (by simpa only [b3, b2] using hx)⟩
  · have := hs1.live j
    have := a3 j
    simp only at *
    omega
  · simp only [b3, b2]
    exact hs1.tree u j hu

end Loc
