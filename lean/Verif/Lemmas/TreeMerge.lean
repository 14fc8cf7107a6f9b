import Verif.Lemmas.Dedup
/-
Merging of the tree: a sequence of replacements of two equal halves by their union.
-/
namespace Loc
open Spec

/-- One merge: two sibling entries with the same properties are replaced by their parent. -/
def MergeOne (f g : PathMap) : Prop :=
  ∃ v n0 n1 m, v.length < 128 ∧ f v = none ∧ f (v ++ [false]) = some n0 ∧ f (v ++ [true]) = some n1 ∧
    raw m = raw n0 ∧ raw m = raw n1 ∧ Block m ∧ path m = v ∧
    (m.family = n0.family ∧ m.family = n1.family) ∧
    ∀ u, g u = if u = v then some m else if u = v ++ [false] ∨ u = v ++ [true] then none else f u

inductive MergeStar : PathMap → PathMap → Prop
  | refl (f : PathMap) : MergeStar f f
  | head {f g h : PathMap} : MergeOne f g → MergeStar g h → MergeStar f h

theorem MergeStar.trans {f g h : PathMap} (a : MergeStar f g) (b : MergeStar g h) : MergeStar f h := by
  induction a with
  | refl => exact b
  | head h1 _ ih => exact .head h1 (ih b)

theorem MergeStar.same {f g : PathMap} (a : MergeStar f g) : SameRes f g := by
  induction a with
  | refl => exact SameRes.refl _
  | head h1 _ ih =>
    obtain ⟨v, n0, n1, m, a1, a2, a3, a4, a5, a6, -, -, -, a7⟩ := h1
    exact (sameRes_merge a1 a2 a3 a4 a5 a6 a7).trans ih

/-- list elements that can still be merged from the left are in the tree -/
structure MInv (c : TreeCtx) : Prop where
  wf : WF c.tree
  asc : Ascending c.list
  blk : ∀ n ∈ c.list, Block n
  mem : ∀ n ∈ c.list, look c.tree (path n) = some n ∨ ∃ w, path n = w ++ [true]

structure MRel (c c' : TreeCtx) : Prop where
  inv : MInv c'
  exm : ∀ u, ex c.tree u = true → ex c'.tree u = true
  star : MergeStar (look c.tree) (look c'.tree)

theorem MRel.trans {a b c : TreeCtx} (h1 : MRel a b) (h2 : MRel b c) : MRel a c :=
  ⟨h2.inv, fun u hu => h2.exm u (h1.exm u hu), h1.star.trans h2.star⟩

theorem MRel.refl {c : TreeCtx} (h : MInv c) : MRel c c := ⟨h, fun _ hu => hu, .refl _⟩

theorem MInv.push {c : TreeCtx} (h : MInv c) {x : Network} (hx : look c.tree (path x) = some x) :
    ∃ l, listPush c.list x = .ok l ∧ MInv ⟨c.tree, l⟩ ∧ c.list.length ≤ l.length := by
  obtain ⟨l', h1, h2, h3⟩ := listPush_mem c.list x h.asc
  have hbx := (look_block h.wf hx).1
  refine ⟨l', h1, ⟨h.wf, h2, ?_, ?_⟩, ?_⟩
  · intro n hn
    rcases (h3 n).mp hn with h' | ⟨rfl, -⟩
    · exact h.blk n h'
    · exact hbx
  · intro n hn
    rcases (h3 n).mp hn with h' | ⟨rfl, -⟩
    · exact h.mem n h'
    · exact .inl hx
  · rcases listPush_spec c.list x h.asc with ⟨-, g⟩ | ⟨-, l1, l2, g1, g2, -⟩
    · rw [h1] at g; cases g; exact Nat.le_refl _
    · rw [h1] at g2; cases g2
      rw [g1]; simp

theorem MInv.shorter {c : TreeCtx} (h : MInv c) (p : Nat) : MInv ⟨c.tree, listRemoveLonger c.list p⟩ := by
  have hsub : ∀ n ∈ listRemoveLonger c.list p, n ∈ c.list := fun n hn => (List.mem_filter.mp hn).1
  exact ⟨h.wf, List.Pairwise.sublist List.filter_sublist h.asc, fun n hn => h.blk n (hsub n hn),
    fun n hn => h.mem n (hsub n hn)⟩

theorem family_of_path {m n : Network} (hm : Block m) (hn : Block n)
    (h : v4path <+: path m ↔ v4path <+: path n) : m.family = n.family := by
  rw [← block_v4_iff hm, ← block_v4_iff hn] at h
  cases e1 : m.family <;> cases e2 : n.family <;> simp_all

/-- The changes made by one successful merge. -/
theorem merge_update {c : TreeCtx} (h : MInv c) {n x m : Network} {w : List Bool}
    (hn : n ∈ c.list) (hx : look c.tree (path x) = some x)
    (hh : Halves w n x) (hraw : SameRaw n x) (hbm : Block m) (hpm : path m = w) (hrm : SameRaw m n) :
    ∃ r t1, treeAdd c.tree m = .ok (r, t1) ∧
      ((r = EBUSY ∧ MRel c ⟨t1, c.list⟩ ∧ ∀ u, look t1 u = look c.tree u) ∨
       (r ≠ EBUSY ∧ ∃ t2 t3 l1 l2, treeDelete t1 x = .ok t2 ∧ treeDelete t2 n = .ok t3 ∧
          listPush c.list m = .ok l1 ∧ listRemove l1 n = .ok l2 ∧ MRel c ⟨t3, l2⟩ ∧
          look t3 (path m) = some m ∧
          (∀ u, look t3 u = if u = w then some m else
            if u = w ++ [false] ∨ u = w ++ [true] then none else look c.tree u) ∧
          (∀ e, e ∈ l2 ↔ (e ∈ c.list ∨ (e = m ∧ ¬ ∃ e ∈ c.list, SameBlock m e)) ∧ ¬ SameBlock n e))) := by
  obtain ⟨p0, p1, hu⟩ := hh
  have hbn := h.blk n hn
  have hbx := (look_block h.wf hx).1
  have hln : look c.tree (path n) = some n := by
    rcases h.mem n hn with h' | ⟨v, h'⟩
    · exact h'
    · rw [p0] at h'
      have := (List.append_inj' h' rfl).2
      simp at this
  have hne : ∀ b : Bool, w ++ [b] ≠ w := by intro b e; have := congrArg List.length e; simp at this
  have hft : w ++ [false] ≠ w ++ [true] := by simp
  obtain ⟨t1, w1, e1, hadd⟩ := treeAdd_spec h.wf hbm
  rw [hpm] at e1 hadd
  rcases hadd with ⟨hnone, hadd, hlook⟩ | ⟨m', -, hadd, hlook⟩
  · refine ⟨0, t1, hadd, .inr ⟨by decide, ?_⟩⟩
    obtain ⟨t2, d1, d2, d3, d4⟩ := treeDelete_spec w1 hbx (by rw [p1]; simp)
    obtain ⟨t3, f1, f2, f3, f4⟩ := treeDelete_spec d2 hbn (by rw [p0]; simp)
    obtain ⟨l1, g1, g2, g3⟩ := listPush_mem c.list m h.asc
    obtain ⟨l2, k1, k2, -, k3⟩ := listRemove_spec l1 n g2
    have hl3 : ∀ u, look t3 u = if u = w then some m else
        if u = w ++ [false] ∨ u = w ++ [true] then none else look c.tree u := by
      intro u
      rw [f4, d4, hlook, p0, p1]
      by_cases hu : u = w
      · subst hu
        rw [if_neg (hne _).symm, if_neg (hne _).symm]
        simp
      · rw [if_neg hu, if_neg hu]
        by_cases hu0 : u = w ++ [false]
        · simp [hu0]
        · by_cases hu1 : u = w ++ [true]
          · simp [hu1]
          · simp [hu0, hu1]
    have hlm : look t3 (path m) = some m := by rw [hpm, hl3, if_pos rfl]
    have hmem : ∀ e, e ∈ l2 ↔ (e ∈ c.list ∨ (e = m ∧ ¬ ∃ e ∈ c.list, SameBlock m e)) ∧ ¬ SameBlock n e := by
      intro e; rw [k3, g3]
    refine ⟨t2, t3, l1, l2, d1, f1, g1, k1, ⟨⟨f2, k2, ?_, ?_⟩, ?_, ?_⟩, hlm, hl3, hmem⟩
    · intro e he
      rcases ((hmem e).mp he).1 with h' | ⟨rfl, -⟩
      · exact h.blk e h'
      · exact hbm
    · intro e he
      obtain ⟨he1, he2⟩ := (hmem e).mp he
      rcases he1 with he1 | ⟨rfl, -⟩
      · rcases h.mem e he1 with h' | h'
        · by_cases hc1 : path e = w ++ [true]
          · exact .inr ⟨w, hc1⟩
          · left
            show look t3 (path e) = some e
            rw [hl3, if_neg, if_neg]
            · exact h'
            · rintro (e' | e')
              · exact he2 ((sameBlock_iff_path hbn (h.blk e he1)).mpr (by rw [p0, e']))
              · exact hc1 e'
            · intro e'; rw [e', hnone] at h'; cases h'
        · exact .inr h'
      · exact .inl hlm
    · intro u hu
      show ex t3 u = true
      rw [f3, d3, e1, hu]; simp
    · refine .head ⟨w, n, x, m, ?_, hnone, ?_, ?_, ?_, ?_, hbm, hpm, ⟨?_, ?_⟩, hl3⟩ (.refl _)
      · have := congrArg List.length p0
        rw [length_path hbn.le] at this
        simp at this
        have := hbn.le
        omega
      · rw [← p0]; exact hln
      · rw [← p1]; exact hx
      · exact sameRaw_iff.mp hrm
      · exact (sameRaw_iff.mp hrm).trans (sameRaw_iff.mp hraw)
      · refine family_of_path hbm hbn ?_
        rw [hpm, p0, v4path_concat_iff]; simp
      · refine family_of_path hbm hbx ?_
        rw [hpm, p1, v4path_concat_iff]
        constructor
        · exact .inl
        · rintro (h' | ⟨h', -⟩)
          · exact h'
          · exact absurd (.inr h') hu
  · refine ⟨EBUSY, t1, hadd, .inl ⟨rfl, ⟨⟨w1, h.asc, h.blk, ?_⟩, ?_, ?_⟩, hlook⟩⟩
    · intro e he
      show look t1 (path e) = some e ∨ _
      rw [hlook]; exact h.mem e he
    · intro u hu
      show ex t1 u = true
      rw [e1, hu]; rfl
    · have : look t1 = look c.tree := funext hlook
      show MergeStar (look c.tree) (look t1)
      rw [this]; exact .refl _

def MergeOut.ctx : MergeOut → TreeCtx
  | .exhausted c => c
  | .merged c => c
  | .busy c => c

theorem mergeLoop_spec (ctz0 : Nat) (h0 : 8 ≤ ctz0) (step : Network → TreeCtx → Res TreeCtx) (x : Network)
    (hstep : ∀ m c, m.pfx < x.pfx → MInv c → look c.tree (path m) = some m → ∃ c', step m c = .ok c' ∧ MRel c c') :
    ∀ (i : Nat) (c : TreeCtx), MInv c → look c.tree (path x) = some x → i ≤ c.list.length →
      ∃ out, mergeLoop ctz0 step x i c = .ok out ∧ MRel c out.ctx := by
  intro i
  induction i with
  | zero => intro c h hx hi; exact ⟨.exhausted c, rfl, MRel.refl h⟩
  | succ i ih =>
    intro c h hx hi
    have hlt : i < c.list.length := hi
    unfold mergeLoop
    rw [List.getElem?_eq_getElem hlt]
    have hn : c.list[i] ∈ c.list := List.getElem_mem hlt
    generalize c.list[i] = n at hn
    have hbn := h.blk n hn
    have hbx := (look_block h.wf hx).1
    rcases mergeNetworks_spec ctz0 h0 hbn hbx with ⟨w, m, hh, hraw, hm, hbm, hpm, hrm⟩ | ⟨-, hm⟩
    · simp only [hm]
      obtain ⟨r, t1, hadd, hcase⟩ := merge_update h hn hx hh hraw hbm hpm hrm
      simp only [hadd]
      rcases hcase with ⟨hr, hrel, -⟩ | ⟨hr, t2, t3, l1, l2, d1, d2, d3, d4, hrel, hlm, -⟩
      · rw [if_pos hr]
        exact ⟨_, rfl, hrel⟩
      · rw [if_neg hr]
        have hlt' : m.pfx < x.pfx := by
          have a := congrArg List.length hh.2.1
          have b := congrArg List.length hpm
          rw [length_path hbx.le] at a
          rw [length_path hbm.le] at b
          simp at a
          omega
        obtain ⟨c', s1, s2⟩ := hstep m ⟨t3, l2⟩ hlt' hrel.inv hlm
        refine ⟨.merged c', ?_, hrel.trans s2⟩
        simp only [bind, Except.bind, d1, d2, d3, d4, s1, pure, Except.pure]
    · simp only [hm]
      obtain ⟨l, g1, g2, g3⟩ := h.push hx
      simp only [g1]
      obtain ⟨out, k1, k2⟩ := ih ⟨c.tree, l⟩ g2 hx (by show i ≤ l.length; omega)
      exact ⟨out, k1, ⟨k2.inv, k2.exm, k2.star⟩⟩

theorem mergeStep_spec (ctz0 : Nat) (h0 : 8 ≤ ctz0) : ∀ (fuel : Nat) (reread : Network → Nat) (x : Network) (c : TreeCtx),
    x.pfx < fuel → MInv c → look c.tree (path x) = some x →
    ∃ c', mergeStep ctz0 reread fuel x c = .ok c' ∧ MRel c c' := by
  intro fuel
  induction fuel with
  | zero => intro _ x c hf; omega
  | succ fuel ih =>
    intro reread x c hf h hx
    unfold mergeStep
    by_cases hl : c.list.length = 0
    · rw [if_pos hl]
      obtain ⟨l, g1, g2, -⟩ := h.push hx
      refine ⟨⟨c.tree, l⟩, by simp only [g1], g2, fun _ hu => hu, .refl _⟩
    · rw [if_neg hl]
      obtain ⟨out, k1, k2⟩ := mergeLoop_spec ctz0 h0 (mergeStep ctz0 netPrefix fuel) x
        (fun m c hm hc hlm => ih netPrefix m c (by omega) hc hlm) c.list.length c h hx (Nat.le_refl _)
      rw [k1]
      cases out with
      | exhausted c' => exact ⟨_, rfl, k2.inv.shorter _, k2.exm, k2.star⟩
      | merged c' => exact ⟨_, rfl, k2.inv.shorter _, k2.exm, k2.star⟩
      | busy c' => exact ⟨_, rfl, k2⟩

theorem merge_walk (ctz0 : Nat) (h0 : 8 ≤ ctz0) (reread : Network → Nat) : ∀ fuel w c, (MInv c ∧ ex c.tree w = true) →
    128 < w.length + fuel →
    ∃ c', treeWalk TreeCtx.tree (fun _ => false) (mergeStep ctz0 reread walkFuel) fuel w c = .ok c' ∧ MRel c c' := by
  refine treeWalk_rule (Pre := fun w c => MInv c ∧ ex c.tree w = true) (Post := fun _ c c' => MRel c c')
    (Mid0 := fun w c c1 => MRel c c1 ∧ ex c.tree w = true) (Mid1 := fun w c c1 => MRel c c1 ∧ ex c.tree w = true)
    ?_ ?_ ?_ ?_ ?_ ?_ ?_
  · intro w c h; exact ⟨h.1.wf, h.2⟩
  · intro w c net z o h _; exact MRel.refl h.1
  · intro w c n h _ hf; cases hf
  · intro w c h _; exact ⟨MRel.refl h.1, h.2⟩
  · intro w c n h hl _
    obtain ⟨hb, hp⟩ := look_block h.1.wf hl
    obtain ⟨c', h1, h2⟩ := mergeStep_spec ctz0 h0 walkFuel reread n c
      (Nat.lt_of_le_of_lt hb.le (by decide)) h.1 (by rw [hp]; exact hl)
    exact ⟨c', h1, h2, h.2⟩
  · rintro w c c1 ⟨h1, h2⟩
    exact ⟨h1.exm w h2, fun _ => ⟨h1, h2⟩, fun he => ⟨⟨h1.inv, he⟩, fun s2 h3 => ⟨h1.trans h3, h2⟩⟩⟩
  · rintro w c c1 ⟨h1, h2⟩
    exact ⟨h1.exm w h2, fun _ => h1, fun he => ⟨⟨h1.inv, he⟩, fun s2 h3 => h1.trans h3⟩⟩

theorem treeMerge_spec (ctz0 : Nat) (h0 : 8 ≤ ctz0) (reread : Network → Nat) {t : Tree} (h : WF t) :
    ∃ t', treeMerge ctz0 reread t = .ok t' ∧ WF t' ∧ MergeStar (look t) (look t') := by
  obtain ⟨c', h1, h2⟩ := merge_walk ctz0 h0 reread walkFuel [] ⟨t, []⟩
    ⟨⟨h, List.Pairwise.nil, by simp, by simp⟩, ex_root h⟩ (by decide)
  exact ⟨c'.tree, by simp only [treeMerge, h1], h2.inv.wf, h2.star⟩

/-- every node except the root has a network below it, nothing is marked as deleted -/
def Pruned : Tree → Prop
  | .nil => True
  | .node d net z o => d = false ∧ (net.isSome ∨ z ≠ .nil ∨ o ≠ .nil) ∧ Pruned z ∧ Pruned o

theorem pruneNode_spec (p : List Bool) (t : Tree) (h : Good p t) :
    Good p (pruneNode false t).2 ∧ (∀ u, look (pruneNode false t).2 u = look t u) ∧
    Pruned (pruneNode false t).2 ∧ ((pruneNode false t).1 = true ↔ (pruneNode false t).2 = .nil) := by
  induction t generalizing p with
  | nil => simp [pruneNode, Good, Pruned]
  | node d net z o ihz iho =>
    obtain ⟨g1, g2, g3, gz, go⟩ := h
    cases d with
    | true =>
      obtain ⟨rfl, rfl, rfl⟩ := g2 rfl
      refine ⟨trivial, ?_, trivial, by simp [pruneNode]⟩
      intro u
      cases u with
      | nil => rfl
      | cons b u => simp [pruneNode, look]
    | false =>
      obtain ⟨z1, z2, z3, z4⟩ := ihz _ gz
      obtain ⟨o1, o2, o3, o4⟩ := iho _ go
      have hlk : ∀ u, look (.node false net (pruneNode false z).2 (pruneNode false o).2) u = look (.node false net z o) u := by
        intro u
        cases u with
        | nil => rfl
        | cons b u => cases b <;> simp [look, z2, o2]
      have hgood : Good p (.node false net (pruneNode false z).2 (pruneNode false o).2) := ⟨g1, by simp, g3, z1, o1⟩
      unfold pruneNode
      simp only
      by_cases hn : net.isSome = true
      · rw [if_pos hn]
        exact ⟨hgood, hlk, ⟨rfl, .inl hn, z3, o3⟩, by simp⟩
      · rw [if_neg hn]
        have hnone : net = none := by cases net <;> simp_all
        by_cases hr : (!(pruneNode false z).1 || !(pruneNode false o).1) = true
        · rw [if_pos hr]
          refine ⟨hgood, hlk, ⟨rfl, .inr ?_, z3, o3⟩, by simp⟩
          simp at hr
          rcases hr with hr | hr
          · left; intro e; rw [z4.mpr e] at hr; cases hr
          · right; intro e; rw [o4.mpr e] at hr; cases hr
        · rw [if_neg hr]
          simp at hr
          refine ⟨by simp [Good], ?_, by simp [Pruned], by simp⟩
          intro u
          rw [← hlk u, z4.mp hr.1, o4.mp hr.2, hnone]
          cases u with
          | nil => rfl
          | cons b u => simp [look]

/-- Pruned apart from the root, which may be empty. -/
def PrunedRoot : Tree → Prop
  | .nil => False
  | .node d _ z o => d = false ∧ Pruned z ∧ Pruned o

theorem treePrune_spec {t : Tree} (h : WF t) :
    WF (treePrune t) ∧ (∀ u, look (treePrune t) u = look t u) ∧ PrunedRoot (treePrune t) := by
  obtain ⟨hg, ha⟩ := h
  cases t with
  | nil => exact absurd ha (by simp [Alive])
  | node d net z o =>
    have hd : d = false := by cases d <;> simp_all [Alive]
    subst hd
    obtain ⟨g1, g2, g3, gz, go⟩ := hg
    obtain ⟨z1, z2, z3, z4⟩ := pruneNode_spec _ z gz
    obtain ⟨o1, o2, o3, o4⟩ := pruneNode_spec _ o go
    have e : treePrune (.node false net z o) = .node false net (pruneNode false z).2 (pruneNode false o).2 := by
      simp only [treePrune]
      rw [pruneNode]
      by_cases h1 : net.isSome = true
      · simp [h1]
      · by_cases h2 : (!(pruneNode false z).1 || !(pruneNode false o).1) = true
        · simp only [h1, h2, if_true, if_false]; rfl
        · simp only [h1, h2, if_true, if_false]; rfl
    rw [e]
    refine ⟨⟨⟨g1, by simp, g3, z1, o1⟩, trivial⟩, ?_, ⟨rfl, z3, o3⟩⟩
    intro u
    cases u with
    | nil => rfl
    | cons b u => cases b <;> simp [look, z2, o2]

/-- The clean-up as a whole. -/
theorem treeCleanup_spec (ctz0 : Nat) (h0 : 8 ≤ ctz0) (reread : Network → Nat) {t : Tree} (h : WF t) :
    ∃ t1 t2 t3, treeCleanup ctz0 reread t = .ok t3 ∧ treeDedup t = .ok t1 ∧ treeMerge ctz0 reread t1 = .ok t2 ∧
      t3 = treePrune t2 ∧ WF t1 ∧ WF t3 ∧
      (∀ u, look t1 u = look t u ∨ look t1 u = none) ∧ SameRes (look t) (look t1) ∧
      CleanBelow .inet (look t1) [] ∧ CleanBelow .inet6 (look t1) [] ∧
      MergeStar (look t1) (look t3) ∧ PrunedRoot t3 := by
  obtain ⟨t1, a1, a2, a3, a4, a5, a6⟩ := treeDedup_spec h
  obtain ⟨t2, b1, b2, b3⟩ := treeMerge_spec ctz0 h0 reread a2
  obtain ⟨c1, c2, c3⟩ := treePrune_spec b2
  have : look (treePrune t2) = look t2 := funext c2
  exact ⟨t1, t2, _, by simp only [treeCleanup, a1, b1], a1, b1, rfl, a2, c1, a3, a4, a5, a6, by rw [this]; exact b3, c3⟩

end Loc
