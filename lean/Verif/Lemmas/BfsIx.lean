import Verif.Lemmas.Bfs
/-
The breadth-first numbering gives different numbers to different nodes.
-/
namespace Loc

/-- The numbers of all nodes of the tree represented by node `i`. -/
def ixs (R : Nat → Option NodeRec) : Nat → Tree → List Nat
  | _, .nil => []
  | i, .node _ _ z o => i :: (match R i with
      | some r => ixs R r.zero z ++ ixs R r.one o
      | none => [])

theorem ixs_mono {R R' : Nat → Option NodeRec} {N : Nat → Option Network}
    (hR : ∀ i r, R i = some r → R' i = some r) : ∀ (t : Tree) (i : Nat), Dec R N i t → ixs R' i t = ixs R i t := by
  intro t
  induction t with
  | nil => intro i h; rfl
  | node d net z o ihz iho =>
    intro i h
    obtain ⟨r, h1, h2, h3, -⟩ := h
    rw [ixs, ixs, h1, hR _ _ h1]
    have hz : ixs R' r.zero z = ixs R r.zero z := by
      rcases h2 with h | ⟨-, -, c⟩
      · rw [h.1]; rfl
      · exact ihz _ c
    have ho : ixs R' r.one o = ixs R r.one o := by
      rcases h3 with h | ⟨-, -, c⟩
      · rw [h.1]; rfl
      · exact iho _ c
    simp only [hz, ho]

theorem ixs_node {R : Nat → Option NodeRec} {i : Nat} {r : NodeRec} (h : R i = some r) (d : Bool) (net : Option Network) (z o : Tree) :
    ixs R i (.node d net z o) = i :: (ixs R r.zero z ++ ixs R r.one o) := by
  rw [ixs, h]

/-- The numbers of the trees in a queue whose first element has number `b`. -/
def qixs (R : Nat → Option NodeRec) : Nat → List Tree → List Nat
  | _, [] => []
  | b, t :: q => ixs R b t ++ qixs R (b + 1) q

theorem qixs_append (R : Nat → Option NodeRec) (q : List Tree) : ∀ (b : Nat) (q' : List Tree),
    qixs R b (q ++ q') = qixs R b q ++ qixs R (b + q.length) q' := by
  induction q with
  | nil => intro b q'; simp [qixs]
  | cons t q ih =>
    intro b q'
    rw [List.cons_append, qixs, ih, qixs, List.append_assoc, List.length_cons]
    congr 3
    omega

theorem qixs_mono {R R' : Nat → Option NodeRec} {N : Nat → Option Network} (hR : ∀ i r, R i = some r → R' i = some r) (q : List Tree) :
    ∀ b, (∀ j t, q[j]? = some t → Dec R N (b + j) t) → qixs R' b q = qixs R b q := by
  induction q with
  | nil => intro b _; rfl
  | cons t q ih =>
    intro b h
    rw [qixs, qixs, ixs_mono hR t b (h 0 t rfl), ih (b + 1)]
    intro j t' hj
    have := h (j + 1) t' (by simpa using hj)
    rwa [show b + 1 + j = b + (j + 1) by omega]

/-- One round of the loop. -/
theorem bfsLoop_step {fuel : Nat} {d : Bool} {net : Option Network} {z o : Tree} {q : List Tree} {base netBase : Nat} {recs : List NodeRec}
    {nets : List Network} (h : bfsLoop (fuel + 1) (.node d net z o :: q) (base + q.length) netBase = .ok (recs, nets)) :
    ∃ r recs' nets' netBase', bfsLoop fuel (q ++ kids z o) (base + 1 + (q ++ kids z o).length - 1) netBase' = .ok (recs', nets') ∧
      recs = r :: recs' ∧ (z ≠ .nil → r.zero = base + 1 + q.length) ∧
      (o ≠ .nil → r.one = base + 1 + q.length + (if z.isNil then 0 else 1)) := by
  have hlen : (q ++ kids z o).length = q.length + (if z.isNil then 0 else 1) + (if o.isNil then 0 else 1) := by
    unfold kids
    cases z <;> cases o <;> simp [Tree.isNil]
  have hidx : (if o.isNil then (if z.isNil then base + q.length else base + q.length + 1) else (if z.isNil then base + q.length else base + q.length + 1) + 1) = (base + 1) + (q ++ kids z o).length - 1 := by
    rw [hlen]
    cases z <;> cases o <;> simp [Tree.isNil] <;> omega
  have hqe : q ++ (if z.isNil then [] else [z]) ++ (if o.isNil then [] else [o]) = q ++ kids z o := by
    simp [kids]
  unfold bfsLoop at h
  simp only at h
  rw [hidx, hqe] at h
  have hz : z ≠ .nil → (if z.isNil then 0 else base + q.length + 1) = base + 1 + q.length := by
    intro hz
    rw [if_neg (fun e => hz ((isNil_iff z).mp e))]; omega
  have ho : o ≠ .nil → (if o.isNil then 0 else (if z.isNil then base + q.length else base + q.length + 1) + 1) =
      base + 1 + q.length + (if z.isNil then 0 else 1) := by
    intro ho
    rw [if_neg (fun e => ho ((isNil_iff o).mp e))]
    split <;> omega
  cases net with
  | some n =>
    simp only at h
    split at h
    · cases h
    rename_i recs' nets' hb
    cases h
    exact ⟨_, recs', nets', _, hb, rfl, hz, ho⟩
  | none =>
    simp only at h
    split at h
    · cases h
    rename_i recs' nets' hb
    cases h
    exact ⟨_, recs', _, _, hb, rfl, hz, ho⟩

theorem bfsLoop_ixs (fuel : Nat) : ∀ (q : List Tree) (base netBase : Nat) (recs : List NodeRec) (nets : List Network),
    (∀ t ∈ q, t ≠ .nil) → sumSizes q < fuel → 1 ≤ base + q.length →
    bfsLoop fuel q (base + q.length - 1) netBase = .ok (recs, nets) →
    (qixs (shifted recs base) base q).Perm (List.range' base (sumSizes q)) := by
  induction fuel with
  | zero => intro q _ _ _ _ _ h; omega
  | succ fuel ih =>
    intro q base netBase recs nets hq hf hb h
    cases q with
    | nil => simp [qixs, sumSizes]
    | cons t q =>
      cases t with
      | nil => exact absurd rfl (hq .nil (by simp))
      | node d net z o =>
        have hq' : ∀ t ∈ q ++ kids z o, t ≠ .nil := by
          intro t ht
          rcases List.mem_append.mp ht with h | h
          · exact hq t (by simp [h])
          · unfold kids at h
            rcases List.mem_append.mp h with h | h
            · split at h
              · simp at h
              · rename_i hz; simp at h; subst h; intro e; exact hz ((isNil_iff _).mpr e)
            · split at h
              · simp at h
              · rename_i hz; simp at h; subst h; intro e; exact hz ((isNil_iff _).mpr e)
        have hsz : sumSizes (q ++ kids z o) = sumSizes q + z.size + o.size := by
          unfold sumSizes kids
          cases z <;> cases o <;> simp [Tree.isNil, Tree.size] <;> omega
        have hsum : sumSizes (.node d net z o :: q) = sumSizes (q ++ kids z o) + 1 := by
          rw [hsz]; simp [sumSizes, Tree.size]; omega
        rw [List.length_cons, show base + (q.length + 1) - 1 = base + q.length by omega] at h
        obtain ⟨r, recs', nets', nb, hbfs, rfl, hz, ho⟩ := bfsLoop_step h
        have hf' : sumSizes (q ++ kids z o) < fuel := by omega
        have hp := ih _ _ _ _ _ hq' hf' (by omega) hbfs
        obtain ⟨recs2, nets2, e2, hdec, -⟩ := bfsLoop_spec fuel (q ++ kids z o) (base + 1) nb hq' hf' (by omega)
        rw [hbfs] at e2
        cases e2
        have hR : ∀ i x, shifted recs' (base + 1) i = some x → shifted (r :: recs') base i = some x :=
          fun i x hx => shifted_cons_mono r recs' base i x hx
        -- the queue behind
        have hqq : qixs (shifted (r :: recs') base) (base + 1) q = qixs (shifted recs' (base + 1)) (base + 1) q := by
          refine qixs_mono hR q (base + 1) fun j t hj => hdec j t ?_
          rw [List.getElem?_append_left (List.getElem?_eq_some_iff.mp hj).1]
          exact hj
        have hkk : qixs (shifted (r :: recs') base) (base + 1 + q.length) (kids z o) = qixs (shifted recs' (base + 1)) (base + 1 + q.length) (kids z o) := by
          refine qixs_mono (N := shifted nets' nb) hR _ _ fun j t hj => ?_
          have := hdec (q.length + j) t (by rw [List.getElem?_append_right (by omega)]; simpa using hj)
          rwa [show base + 1 + q.length + j = base + 1 + (q.length + j) by omega]
        have hkids : qixs (shifted (r :: recs') base) (base + 1 + q.length) (kids z o) =
            ixs (shifted (r :: recs') base) r.zero z ++ ixs (shifted (r :: recs') base) r.one o := by
          cases z with
          | nil =>
            cases o with
            | nil => rfl
            | node =>
              rw [ho (by intro e; cases e)]
              simp [kids, Tree.isNil, qixs, ixs]
          | node =>
            rw [hz (by intro e; cases e)]
            cases o with
            | nil => simp [kids, Tree.isNil, qixs, ixs]
            | node =>
              rw [ho (by intro e; cases e)]
              simp [kids, Tree.isNil, qixs, ixs]
        rw [qixs, ixs_node (shifted_head r recs' base), hsum, ← hkids, hkk, hqq, List.range'_succ, List.cons_append]
        refine List.Perm.cons _ ?_
        refine List.perm_append_comm.trans ?_
        rw [← qixs_append]
        exact hp

/-- All nodes of the tree have different numbers. -/
theorem bfs_ixs {t : Tree} (ht : t ≠ .nil) {recs : List NodeRec} {nets : List Network}
    (h : bfsLoop (t.size + 1) [t] 0 0 = .ok (recs, nets)) : (ixs (fun i => recs[i]?) 0 t).Nodup := by
  have := bfsLoop_ixs (t.size + 1) [t] 0 0 recs nets (by simpa using ht) (by simp [sumSizes]) (by simp) h
  have e : shifted recs 0 = fun i => recs[i]? := by
    funext i
    simp [shifted]
  rw [e] at this
  simp only [qixs, List.append_nil] at this
  exact this.nodup_iff.mpr List.nodup_range'

end Loc
