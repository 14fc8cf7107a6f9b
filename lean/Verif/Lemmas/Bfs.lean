import Verif.Model.Writer
import Verif.Spec.Tree
import Verif.Lemmas.Tree
/-
The breadth-first numbering of `loc_database_write_networks` encodes the tree.
-/
namespace Loc

/-- A child pointer: 0 for a missing child, otherwise a number that `P` accepts. -/
def ChildOk (P : Nat → Tree → Prop) (t : Tree) (i : Nat) : Prop := (t = .nil ∧ i = 0) ∨ (t ≠ .nil ∧ i ≠ 0 ∧ P i t)

/-- Node number `i` (records `R`, networks `N`) represents the tree. -/
def Dec (R : Nat → Option NodeRec) (N : Nat → Option Network) : Nat → Tree → Prop
  | _, .nil => False
  | i, .node _ net z o => ∃ r, R i = some r ∧
      ((z = .nil ∧ r.zero = 0) ∨ (z ≠ .nil ∧ r.zero ≠ 0 ∧ Dec R N r.zero z)) ∧
      ((o = .nil ∧ r.one = 0) ∨ (o ≠ .nil ∧ r.one ≠ 0 ∧ Dec R N r.one o)) ∧
      (match net with
        | none => r.net = 0xffffffff
        | some n => N r.net = some n)

theorem Dec.mono {R R' : Nat → Option NodeRec} {N N' : Nat → Option Network}
    (hR : ∀ i r, R i = some r → R' i = some r) (hN : ∀ i n, N i = some n → N' i = some n) :
    ∀ (t : Tree) (i : Nat), Dec R N i t → Dec R' N' i t := by
  intro t
  induction t with
  | nil => intro i h; exact h
  | node d net z o ihz iho =>
    intro i h
    obtain ⟨r, h1, h2, h3, h4⟩ := h
    refine ⟨r, hR _ _ h1, ?_, ?_, ?_⟩
    · rcases h2 with h | ⟨a, b, c⟩
      · exact .inl h
      · exact .inr ⟨a, b, ihz _ c⟩
    · rcases h3 with h | ⟨a, b, c⟩
      · exact .inl h
      · exact .inr ⟨a, b, iho _ c⟩
    · cases net with
      | none => exact h4
      | some n => exact hN _ _ h4

/-- List access with an offset. -/
def shifted {α : Type} (l : List α) (base i : Nat) : Option α := if i < base then none else l[i - base]?

theorem shifted_cons_mono {α : Type} (x : α) (l : List α) (base i : Nat) (y : α) (h : shifted l (base + 1) i = some y) :
    shifted (x :: l) base i = some y := by
  unfold shifted at *
  split at h
  · cases h
  · rename_i hi
    rw [if_neg (by omega)]
    have : i - base = (i - (base + 1)) + 1 := by omega
    rw [this, List.getElem?_cons_succ]
    exact h

theorem shifted_head {α : Type} (x : α) (l : List α) (base : Nat) : shifted (x :: l) base base = some x := by
  simp [shifted]

def sumSizes (q : List Tree) : Nat := (q.map Tree.size).sum

theorem size_pos {t : Tree} (h : t ≠ .nil) : 0 < t.size := by
  cases t with
  | nil => exact absurd rfl h
  | node => simp only [Tree.size]; omega

theorem isNil_iff (t : Tree) : t.isNil = true ↔ t = .nil := by cases t <;> simp [Tree.isNil]

def kids (z o : Tree) : List Tree := (if z.isNil then [] else [z]) ++ (if o.isNil then [] else [o])

/-- The loop: node numbers, networks, and how many there are. -/
theorem bfsLoop_spec (fuel : Nat) : ∀ (q : List Tree) (base netBase : Nat), (∀ t ∈ q, t ≠ .nil) → sumSizes q < fuel →
    1 ≤ base + q.length →
    ∃ recs nets, bfsLoop fuel q (base + q.length - 1) netBase = .ok (recs, nets) ∧
      (∀ j t, q[j]? = some t → Dec (shifted recs base) (shifted nets netBase) (base + j) t) ∧
      recs.length = sumSizes q ∧ nets.Perm (q.flatMap Tree.networks) ∧
      (∀ r ∈ recs, r.zero < base + recs.length ∧ r.one < base + recs.length ∧ (r.net = 0xffffffff ∨ (netBase ≤ r.net ∧ r.net < netBase + nets.length))) := by
  induction fuel with
  | zero => intro q base netBase _ h; omega
  | succ fuel ih =>
    intro q base netBase hq hf hb
    cases q with
    | nil =>
      refine ⟨[], [], by unfold bfsLoop; rfl, by simp, by simp [sumSizes], by simp, by simp⟩
    | cons t q =>
      cases t with
      | nil => exact absurd rfl (hq .nil (by simp))
      | node d net z o =>
        have hq' : ∀ t ∈ q ++ kids z o, t ≠ .nil := by
          intro t ht
          rcases List.mem_append.mp ht with h | h
          · exact hq t (by simp [h])
          · unfold kids at h
            rcases List.mem_append.mp h with h | h
            · split at h
              · simp at h
              · rename_i hz; simp at h; subst h; intro e; exact hz ((isNil_iff _).mpr e)
            · split at h
              · simp at h
              · rename_i hz; simp at h; subst h; intro e; exact hz ((isNil_iff _).mpr e)
        have hkz : ∀ t : Tree, (if t.isNil then 0 else t.size) = t.size := by
          intro t; cases t <;> simp [Tree.isNil, Tree.size]
        have hsz : sumSizes (q ++ kids z o) = sumSizes q + z.size + o.size := by
          unfold sumSizes kids
          cases z <;> cases o <;> simp [Tree.isNil, Tree.size] <;> omega
        have hsum : sumSizes (.node d net z o :: q) = sumSizes (q ++ kids z o) + 1 := by
          rw [hsz]; simp [sumSizes, Tree.size]; omega
        have hlen : (q ++ kids z o).length = q.length + (if z.isNil then 0 else 1) + (if o.isNil then 0 else 1) := by
          unfold kids
          cases z <;> cases o <;> simp [Tree.isNil]
        have hidx : (if o.isNil then (if z.isNil then base + (q.length + 1) - 1 else base + (q.length + 1) - 1 + 1) else (if z.isNil then base + (q.length + 1) - 1 else base + (q.length + 1) - 1 + 1) + 1) = (base + 1) + (q ++ kids z o).length - 1 := by
          rw [hlen]
          cases z <;> cases o <;> simp [Tree.isNil] <;> omega
        have hqe : q ++ (if z.isNil then [] else [z]) ++ (if o.isNil then [] else [o]) = q ++ kids z o := by
          simp [kids]
        have hnets : (q ++ kids z o).flatMap Tree.networks = q.flatMap Tree.networks ++ z.networks ++ o.networks := by
          unfold kids
          cases z <;> cases o <;> simp [Tree.isNil, Tree.networks]
        -- the positions of the children
        have hz : z ≠ .nil → (q ++ kids z o)[q.length]? = some z := by
          intro h
          unfold kids
          rw [if_neg (by rw [isNil_iff]; exact h)]
          simp
        have ho : o ≠ .nil → (q ++ kids z o)[q.length + (if z.isNil then 0 else 1)]? = some o := by
          intro h
          unfold kids
          rw [if_neg (fun e => h ((isNil_iff o).mp e))]
          by_cases hzn : z.isNil
          · rw [if_pos hzn, if_pos hzn]; simp
          · rw [if_neg hzn, if_neg hzn]
            rw [List.getElem?_append_right (by omega)]
            simp
        unfold bfsLoop
        simp only [List.length_cons]
        rw [hidx, hqe]
        have hf' : sumSizes (q ++ kids z o) < fuel := by omega
        cases net with
        | some n =>
          obtain ⟨recs, nets, e, h1, h2, h3, h4⟩ := ih (q ++ kids z o) (base + 1) (netBase + 1) hq' hf' (by omega)
          rw [e]
          refine ⟨_, _, rfl, ?_, ?_, ?_, ?_⟩
          · have hmono : ∀ (x : NodeRec) t i, Dec (shifted recs (base + 1)) (shifted nets (netBase + 1)) i t → Dec (shifted (x :: recs) base) (shifted (n :: nets) netBase) i t :=
              fun x t i h => Dec.mono (shifted_cons_mono _ _ _) (shifted_cons_mono _ _ _) t i h
            intro j t hj
            cases j with
            | zero =>
              simp only [List.getElem?_cons_zero, Option.some.injEq] at hj
              subst hj
              refine ⟨_, shifted_head _ _ _, ?_, ?_, shifted_head _ _ _⟩
              · by_cases hzn : z = .nil
                · exact .inl ⟨hzn, by rw [if_pos ((isNil_iff z).mpr hzn)]⟩
                · refine .inr ⟨hzn, ?_⟩
                  rw [if_neg (fun e => hzn ((isNil_iff z).mp e))]
                  refine ⟨Nat.succ_ne_zero _, hmono _ _ _ ?_⟩
                  have := h1 _ _ (hz hzn)
                  have e2 : base + 1 + q.length = base + (q.length + 1) - 1 + 1 := by omega
                  rw [e2] at this
                  exact this
              · by_cases hon : o = .nil
                · exact .inl ⟨hon, by rw [if_pos ((isNil_iff o).mpr hon)]⟩
                · refine .inr ⟨hon, ?_⟩
                  rw [if_neg (fun e => hon ((isNil_iff o).mp e))]
                  refine ⟨Nat.succ_ne_zero _, hmono _ _ _ ?_⟩
                  have := h1 _ _ (ho hon)
                  have e2 : base + 1 + (q.length + if z.isNil then 0 else 1) = (if z.isNil then base + (q.length + 1) - 1 else base + (q.length + 1) - 1 + 1) + 1 := by
                    by_cases hzn : z.isNil
                    · rw [if_pos hzn, if_pos hzn]; omega
                    · rw [if_neg hzn, if_neg hzn]; omega
                  rw [e2] at this
                  exact this
            | succ j =>
              have hj' : (q ++ kids z o)[j]? = some t := by
                have : q[j]? = some t := by simpa using hj
                rw [List.getElem?_append_left]
                · exact this
                · exact (List.getElem?_eq_some_iff.mp this).1
              have := h1 _ _ hj'
              have e2 : base + 1 + j = base + (j + 1) := by omega
              rw [e2] at this
              exact hmono _ _ _ this
          · rw [List.length_cons, h2, hsum]
          · rw [List.flatMap_cons]
            simp only [Tree.networks, Option.toList_some]
            rw [List.append_assoc, List.append_assoc, List.singleton_append]
            refine List.Perm.cons n ?_
            refine h3.trans ?_
            rw [hnets]
            have : (q.flatMap Tree.networks ++ z.networks ++ o.networks) = q.flatMap Tree.networks ++ (z.networks ++ o.networks) := by simp
            rw [this, ← List.append_assoc z.networks]
            exact List.perm_append_comm
          · intro r hr
            rcases List.mem_cons.mp hr with rfl | hr
            · simp only [List.length_cons]
              have hle : (q ++ kids z o).length ≤ recs.length := by
                rw [h2]
                clear h1 h2 h3 h4 e ih hidx hlen hnets hz ho hqe hsum hsz hkz hf hf'
                generalize q ++ kids z o = l at hq'
                induction l with
                | nil => simp
                | cons x l ih =>
                  have := ih (fun t ht => hq' t (by simp [ht]))
                  have hx := size_pos (hq' x (by simp))
                  simp only [sumSizes, List.map_cons, List.sum_cons, List.length_cons] at *
                  omega
              rw [hlen] at hle
              refine ⟨?_, ?_, .inr ⟨by omega, by omega⟩⟩
              · split
                · omega
                · rename_i hz'; rw [if_neg hz'] at hle; omega
              · split
                · omega
                · rename_i ho'; rw [if_neg ho'] at hle
                  split
                  · rename_i hz'; rw [if_pos hz'] at hle; omega
                  · rename_i hz'; rw [if_neg hz'] at hle; omega
            · obtain ⟨a, b, c⟩ := h4 r hr
              simp only [List.length_cons]
              refine ⟨by omega, by omega, ?_⟩
              rcases c with c | c
              · exact .inl c
              · exact .inr ⟨by omega, by omega⟩
        | none =>
          obtain ⟨recs, nets, e, h1, h2, h3, h4⟩ := ih (q ++ kids z o) (base + 1) netBase hq' hf' (by omega)
          rw [e]
          refine ⟨_, _, rfl, ?_, ?_, ?_, ?_⟩
          · have hmono : ∀ (x : NodeRec) t i, Dec (shifted recs (base + 1)) (shifted nets netBase) i t → Dec (shifted (x :: recs) base) (shifted nets netBase) i t :=
              fun x t i h => Dec.mono (shifted_cons_mono _ _ _) (fun _ _ h => h) t i h
            intro j t hj
            cases j with
            | zero =>
              simp only [List.getElem?_cons_zero, Option.some.injEq] at hj
              subst hj
              refine ⟨_, shifted_head _ _ _, ?_, ?_, rfl⟩
              · by_cases hzn : z = .nil
                · exact .inl ⟨hzn, by rw [if_pos ((isNil_iff z).mpr hzn)]⟩
                · refine .inr ⟨hzn, ?_⟩
                  rw [if_neg (fun e => hzn ((isNil_iff z).mp e))]
                  refine ⟨Nat.succ_ne_zero _, hmono _ _ _ ?_⟩
                  have := h1 _ _ (hz hzn)
                  have e2 : base + 1 + q.length = base + (q.length + 1) - 1 + 1 := by omega
                  rw [e2] at this
                  exact this
              · by_cases hon : o = .nil
                · exact .inl ⟨hon, by rw [if_pos ((isNil_iff o).mpr hon)]⟩
                · refine .inr ⟨hon, ?_⟩
                  rw [if_neg (fun e => hon ((isNil_iff o).mp e))]
                  refine ⟨Nat.succ_ne_zero _, hmono _ _ _ ?_⟩
                  have := h1 _ _ (ho hon)
                  have e2 : base + 1 + (q.length + if z.isNil then 0 else 1) = (if z.isNil then base + (q.length + 1) - 1 else base + (q.length + 1) - 1 + 1) + 1 := by
                    by_cases hzn : z.isNil
                    · rw [if_pos hzn, if_pos hzn]; omega
                    · rw [if_neg hzn, if_neg hzn]; omega
                  rw [e2] at this
                  exact this
            | succ j =>
              have hj' : (q ++ kids z o)[j]? = some t := by
                have : q[j]? = some t := by simpa using hj
                rw [List.getElem?_append_left]
                · exact this
                · exact (List.getElem?_eq_some_iff.mp this).1
              have := h1 _ _ hj'
              have e2 : base + 1 + j = base + (j + 1) := by omega
              rw [e2] at this
              exact hmono _ _ _ this
          · rw [List.length_cons, h2, hsum]
          · rw [List.flatMap_cons]
            simp only [Tree.networks, Option.toList_none, List.nil_append]
            refine h3.trans ?_
            rw [hnets, List.append_assoc]
            exact List.perm_append_comm
          · intro r hr
            rcases List.mem_cons.mp hr with rfl | hr
            · simp only [List.length_cons]
              have hle : (q ++ kids z o).length ≤ recs.length := by
                rw [h2]
                clear h1 h2 h3 h4 e ih hidx hlen hnets hz ho hqe hsum hsz hkz hf hf'
                generalize q ++ kids z o = l at hq'
                induction l with
                | nil => simp
                | cons x l ih =>
                  have := ih (fun t ht => hq' t (by simp [ht]))
                  have hx := size_pos (hq' x (by simp))
                  simp only [sumSizes, List.map_cons, List.sum_cons, List.length_cons] at *
                  omega
              rw [hlen] at hle
              refine ⟨?_, ?_, .inl trivial⟩
              · split
                · omega
                · rename_i hz'; rw [if_neg hz'] at hle; omega
              · split
                · omega
                · rename_i ho'; rw [if_neg ho'] at hle
                  split
                  · rename_i hz'; rw [if_pos hz'] at hle; omega
                  · rename_i hz'; rw [if_neg hz'] at hle; omega
            · obtain ⟨a, b, c⟩ := h4 r hr
              simp only [List.length_cons]
              exact ⟨by omega, by omega, c⟩

/-- The whole numbering. -/
theorem bfs_spec {t : Tree} (ht : t ≠ .nil) :
    ∃ recs nets, bfsLoop (t.size + 1) [t] 0 0 = .ok (recs, nets) ∧
      Dec (fun i => recs[i]?) (fun i => nets[i]?) 0 t ∧ recs.length = t.size ∧ nets.Perm t.networks ∧
      (∀ r ∈ recs, r.zero < recs.length ∧ r.one < recs.length ∧ (r.net = 0xffffffff ∨ r.net < nets.length)) := by
  obtain ⟨recs, nets, h0, h1, h2, h3, h4⟩ := bfsLoop_spec (t.size + 1) [t] 0 0 (by simpa using ht) (by simp [sumSizes]) (by simp)
  refine ⟨recs, nets, h0, ?_, ?_, ?_, ?_⟩
  · have := h1 0 t (by simp)
    exact Dec.mono (fun i r h => by simpa [shifted] using h) (fun i r h => by simpa [shifted] using h) t 0 this
  · rw [h2]; simp [sumSizes]
  · simpa using h3
  · intro r hr
    obtain ⟨a, b, c⟩ := h4 r hr
    refine ⟨by omega, by omega, ?_⟩
    rcases c with c | c
    · exact .inl c
    · exact .inr (by omega)

end Loc
