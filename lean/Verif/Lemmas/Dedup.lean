import Verif.Lemmas.Lpm
import Verif.Lemmas.Exclude
/-
De-duplication of the tree: keeps every resolution and leaves no redundant network.
-/
namespace Loc
open Spec

theorem parentAt_unique {f : PathMap} {x v v' : List Bool} {n n' : Network}
    (h : ParentAt f x v n) (h' : ParentAt f x v' n') : v = v' ∧ n = n' := by
  obtain ⟨a1, a2, a3, a4⟩ := h
  obtain ⟨b1, b2, b3, b4⟩ := h'
  have : v = v' := by
    rcases prefix_or_prefix a1 b1 with h | h
    · by_cases e : v = v'
      · exact e
      · have := a4 v' h b1 (fun e' => e e'.symm) b2
        rw [b3] at this; cases this
    · by_cases e : v = v'
      · exact e
      · have := b4 v h a1 e a2
        rw [a3] at this; cases this
  subst this
  rw [a3] at b3; cases b3
  exact ⟨rfl, rfl⟩

theorem listRemove_length {l l' : NetList} {n : Network} (h : Ascending l) (h' : Ascending l') (hn : n ∈ l)
    (hmem : ∀ x, x ∈ l' ↔ x ∈ l ∧ ¬ SameBlock n x) : l'.length + 1 = l.length := by
  have hp : l'.Perm (l.erase n) := by
    rw [List.perm_ext_iff_of_nodup (asc_nodup h') ((asc_nodup h).erase n)]
    intro x
    rw [hmem, (asc_nodup h).mem_erase_iff]
    constructor
    · rintro ⟨h1, h2⟩
      refine ⟨?_, h1⟩
      rintro rfl
      exact h2 (sameBlock_refl _)
    · rintro ⟨h1, h2⟩
      exact ⟨h2, fun hs => h1 (asc_unique h hn h2 hs).symm⟩
  rw [hp.length_eq, List.length_erase_of_mem hn]
  have := List.length_pos_of_mem hn
  omega

/-- Result of one de-duplication step. -/
def StepOut (t : Tree) (l : NetList) (x : Network) (c : TreeCtx) : Prop :=
  WF c.tree ∧ Ascending c.list ∧ (∀ u, ex t u = true → ex c.tree u = true) ∧
  (∀ v n, v <+: path x → v ≠ path x → look t v = some n → n ∈ c.list) ∧
  ((∃ v n, ParentAt (look t) (path x) v n ∧ raw n = raw x ∧
      (∀ u, look c.tree u = if u = path x then none else look t u) ∧ (∀ n ∈ c.list, n ∈ l)) ∨
   ((∀ v n, ParentAt (look t) (path x) v n → raw n ≠ raw x) ∧
      (∀ u, look c.tree u = look t u) ∧ (∀ n ∈ c.list, n ∈ l ∨ n = x) ∧ x ∈ c.list))

theorem dedupLoop_spec {t : Tree} (hwf : WF t) {x : Network} (hx : look t (path x) = some x) :
    ∀ (i : Nat) (l : NetList), l.length = i → Ascending l → (∀ n ∈ l, look t (path n) = some n) →
      (∀ n ∈ l, ¬ path x <+: path n) →
      (∀ v n, v <+: path x → v ≠ path x → look t v = some n → n ∈ l) →
      ∃ c, dedupLoop x i ⟨t, l⟩ = .ok c ∧ StepOut t l x c := by
  have hbx := (look_block hwf hx).1
  have hpush : ∀ l : NetList, Ascending l → (∀ n ∈ l, look t (path n) = some n) → (∀ n ∈ l, ¬ path x <+: path n) →
      (∀ v n, v <+: path x → v ≠ path x → look t v = some n → n ∈ l) →
      (∀ v n, ParentAt (look t) (path x) v n → raw n ≠ raw x) →
      ∃ l', listPush l x = .ok l' ∧ StepOut t l x ⟨t, l'⟩ := by
    intro l hasc hin hnp hb hpar
    obtain ⟨l', h1, h2, h3⟩ := listPush_mem l x hasc
    refine ⟨l', h1, hwf, h2, fun u hu => hu, ?_, .inr ⟨hpar, fun u => rfl, ?_, ?_⟩⟩
    · intro v n a b c
      exact (h3 n).mpr (.inl (hb v n a b c))
    · intro n hn
      rcases (h3 n).mp hn with h | h
      · exact .inl h
      · exact .inr h.1
    · refine (h3 x).mpr (.inr ⟨rfl, ?_⟩)
      rintro ⟨e, he, hs⟩
      refine hnp e he ?_
      rw [(sameBlock_iff_path hbx (look_block hwf (hin e he)).1).mp hs]
      exact List.prefix_refl _
  intro i
  induction i with
  | zero =>
    intro l hl hasc hin hnp hb
    have : l = [] := List.length_eq_zero_iff.mp hl
    subst this
    obtain ⟨l', h1, h2⟩ := hpush [] hasc hin hnp hb (by
      rintro v n ⟨a, b, c, -⟩
      exact absurd (hb v n a b c) (by simp))
    exact ⟨⟨t, l'⟩, by simp only [dedupLoop, h1], h2⟩
  | succ i ih =>
    intro l hl hasc hin hnp hb
    have hi : i < l.length := by omega
    have hget : l[i]? = some l[i] := List.getElem?_eq_getElem hi
    have hmem : l[i] ∈ l := List.getElem_mem hi
    generalize hn : l[i] = n at *
    have hbn := (look_block hwf (hin n hmem)).1
    unfold dedupLoop
    simp only [hget]
    by_cases hs : isSubnet n x = true
    · rw [if_pos hs]
      have hpre := (isSubnet_iff_path hbn hbx).mp hs
      have hpar : ParentAt (look t) (path x) (path n) n := by
        refine ⟨hpre, ?_, hin n hmem, ?_⟩
        · intro e; exact hnp n hmem (e ▸ List.prefix_refl _)
        · intro u h1 h2 h3 h4
          cases hlu : look t u with
          | none => rfl
          | some k =>
            exfalso
            have hk := hb u k h2 h4 hlu
            obtain ⟨hbk, hpk⟩ := look_block hwf hlu
            have hbef : Before n k := before_of_prefix hbn hbk (by rw [hpk]; exact h1) (by rw [hpk]; exact fun e => h3 e.symm)
            obtain ⟨j, hj, rfl⟩ := List.getElem_of_mem hk
            have hji : j ≤ i := by omega
            rcases Nat.lt_or_eq_of_le hji with h | h
            · have := List.pairwise_iff_getElem.mp hasc j i hj hi h
              rw [hn] at this
              exact before_asymm this hbef
            · subst h
              rw [hn] at hbef
              exact before_irrefl _ hbef
      by_cases hp : propertiesCmp n x = 0
      · rw [if_pos hp]
        have hr : raw n = raw x := sameRaw_iff.mp ((propertiesCmp_zero n x).mp hp)
        have hne : path x ≠ [] := by
          intro e
          exact hpar.2.1 (by rw [e] at hpre ⊢; exact List.prefix_nil.mp hpre)
        obtain ⟨t', h1, h2, h3, h4⟩ := treeDelete_spec hwf hbx hne
        refine ⟨⟨t', l⟩, by simp only [h1], h2, hasc, ?_, hb, .inl ⟨_, n, hpar, hr, h4, fun n hn => hn⟩⟩
        intro u hu; rw [h3, hu]; rfl
      · rw [if_neg hp]
        obtain ⟨l', h1, h2⟩ := hpush l hasc hin hnp hb (by
          intro v k hk hr
          have := (parentAt_unique hpar hk).2
          subst this
          exact hp ((propertiesCmp_zero n x).mpr (sameRaw_iff.mpr hr)))
        exact ⟨⟨t, l'⟩, by simp only [h1], h2⟩
    · rw [if_neg hs]
      obtain ⟨l', h1, h2, h3, h4⟩ := listRemove_spec l n hasc
      have hlen := listRemove_length hasc h2 hmem h4
      have hsub : ∀ k ∈ l', k ∈ l := fun k hk => ((h4 k).mp hk).1
      obtain ⟨c, g1, g2⟩ := ih l' (by omega) h2 (fun k hk => hin k (hsub k hk)) (fun k hk => hnp k (hsub k hk)) (by
        intro v k a b d
        refine (h4 k).mpr ⟨hb v k a b d, ?_⟩
        intro hsb
        obtain ⟨hbk, hpk⟩ := look_block hwf d
        have := (sameBlock_iff_path hbn hbk).mp hsb
        exact hs ((isSubnet_iff_path hbn hbx).mpr (by rw [this, hpk]; exact a)))
      refine ⟨c, by simp only [h1]; exact g1, ?_⟩
      obtain ⟨e1, e2, e3, e4, e5⟩ := g2
      refine ⟨e1, e2, e3, e4, ?_⟩
      rcases e5 with ⟨v, k, a, b, c, d⟩ | ⟨a, b, c, d⟩
      · exact .inl ⟨v, k, a, b, c, fun n hn => hsub n (d n hn)⟩
      · exact .inr ⟨a, b, fun n hn => (c n hn).imp (hsub n) id, d⟩

/-! ### The walk -/

/-- No entry in the subtree at `w` that is reachable without meeting a network of the family to
    skip repeats the properties of its closest ancestor. -/
def CleanBelow (fam : Family) (f : PathMap) (w : List Bool) : Prop :=
  ∀ u y, w <+: u → f u = some y → (∀ v k, v <+: u → f v = some k → k.family ≠ fam) →
    ∀ v n, ParentAt f u v n → raw n ≠ raw y

structure DPre (fam : Family) (w : List Bool) (c : TreeCtx) : Prop where
  wf : WF c.tree
  exw : ex c.tree w = true
  asc : Ascending c.list
  mem : ∀ n ∈ c.list, look c.tree (path n) = some n
  out : ∀ n ∈ c.list, ¬ w <+: path n
  anc : ∀ v n, v <+: w → v ≠ w → look c.tree v = some n → n ∈ c.list ∧ n.family ≠ fam

/-- No entry repeats the properties of its closest ancestor. -/
def NoTwice (f : PathMap) : Prop := ∀ u y v n, f u = some y → ParentAt f u v n → raw n ≠ raw y

structure DRel (fam : Family) (w : List Bool) (c c' : TreeCtx) : Prop where
  wf : WF c'.tree
  exm : ∀ u, ex c.tree u = true → ex c'.tree u = true
  asc : Ascending c'.list
  mem : ∀ n ∈ c'.list, look c'.tree (path n) = some n
  lst : ∀ n ∈ c'.list, n ∈ c.list ∨ w <+: path n
  frame : ∀ u, ¬ w <+: u → look c'.tree u = look c.tree u
  sub : ∀ u, look c'.tree u = look c.tree u ∨
    (look c'.tree u = none ∧ ∃ k, look c.tree u = some k ∧ k.family ≠ fam)
  cov : ∀ v k, look c.tree v = some k → ∃ v' k', v' <+: v ∧ look c'.tree v' = some k'
  same : SameRes (look c.tree) (look c'.tree)
  idle : NoTwice (look c.tree) → look c'.tree = look c.tree

structure DPost (fam : Family) (w : List Bool) (c c' : TreeCtx) : Prop extends DRel fam w c c' where
  anc : ∀ v n, v <+: w → v ≠ w → look c'.tree v = some n → n ∈ c'.list
  clean : CleanBelow fam (look c'.tree) w

theorem prefix_concat_ne {u w : List Bool} {b : Bool} : u <+: w ++ [b] ∧ u ≠ w ++ [b] ↔ u <+: w := by
  constructor
  · rintro ⟨h1, h2⟩
    rcases List.prefix_concat_iff.mp h1 with h | h
    · exact absurd h h2
    · exact h
  · intro h
    refine ⟨h.trans (List.prefix_append _ _), ?_⟩
    rintro rfl
    have := h.length_le
    simp at this

theorem child_cases {u w : List Bool} (h : w <+: u) : u = w ∨ w ++ [false] <+: u ∨ w ++ [true] <+: u := by
  by_cases e : u = w
  · exact .inl e
  · obtain ⟨b, hb⟩ := strict_concat h (fun e' => e e'.symm)
    cases b
    · exact .inr (.inl hb)
    · exact .inr (.inr hb)

theorem not_both {w u : List Bool} (h0 : w ++ [false] <+: u) (h1 : w ++ [true] <+: u) : False := by
  have := List.prefix_of_prefix_length_le h0 h1 (by simp)
  have := this.eq_of_length (by simp)
  simp at this

/-- `ParentAt` only looks at prefixes. -/
theorem parentAt_congr {f g : PathMap} {x v : List Bool} {n : Network} (h : ∀ u, u <+: x → f u = g u)
    (hp : ParentAt f x v n) : ParentAt g x v n := by
  obtain ⟨a, b, c, d⟩ := hp
  exact ⟨a, b, by rw [← h v a]; exact c, fun u h1 h2 h3 h4 => by rw [← h u h2]; exact d u h1 h2 h3 h4⟩

theorem DRel.refl {fam : Family} {w : List Bool} {c : TreeCtx} (h : DPre fam w c) : DRel fam w c c :=
  ⟨h.wf, fun _ hu => hu, h.asc, h.mem, fun n hn => .inl hn, fun _ _ => rfl, fun _ => .inl rfl,
    fun v k hk => ⟨v, k, List.prefix_refl _, hk⟩, SameRes.refl _, fun _ => rfl⟩

theorem DRel.trans {fam : Family} {w w' : List Bool} {a b c : TreeCtx} (h1 : DRel fam w a b)
    (h2 : DRel fam w' b c) (hw : w <+: w') : DRel fam w a c := by
  refine ⟨h2.wf, fun u hu => h2.exm u (h1.exm u hu), h2.asc, h2.mem, ?_, ?_, ?_, ?_, h1.same.trans h2.same,
    fun hn => (h2.idle (by rw [h1.idle hn]; exact hn)).trans (h1.idle hn)⟩
  · intro n hn
    rcases h2.lst n hn with h | h
    · exact h1.lst n h
    · exact .inr (hw.trans h)
  · intro u hu
    rw [h2.frame u (fun h => hu (hw.trans h)), h1.frame u hu]
  · intro u
    rcases h2.sub u with h | h
    · rw [h]; exact h1.sub u
    · rcases h1.sub u with h' | h'
      · rw [h'] at h; exact .inr h
      · obtain ⟨-, k, hk, -⟩ := h
        rw [h'.1] at hk; cases hk
  · intro v k hk
    obtain ⟨v', k', g1, g2⟩ := h1.cov v k hk
    obtain ⟨v'', k'', g3, g4⟩ := h2.cov v' k' g2
    exact ⟨v'', k'', g3.trans g1, g4⟩

theorem dedup_walk (fam : Family) : ∀ fuel w c, DPre fam w c → 128 < w.length + fuel →
    ∃ c', treeWalk TreeCtx.tree (fun n => decide (n.family = fam)) dedupStep fuel w c = .ok c' ∧ DPost fam w c c' := by
  refine treeWalk_rule (Pre := DPre fam) (Post := DPost fam)
    (Mid0 := fun w c c1 => DRel fam w c c1 ∧ ex c.tree w = true ∧
      (∀ n ∈ c1.list, ¬ w ++ [false] <+: path n ∧ ¬ w ++ [true] <+: path n) ∧
      (∀ v n, v <+: w → look c1.tree v = some n → n ∈ c1.list ∧ n.family ≠ fam) ∧
      (∀ y, look c1.tree w = some y → ∀ v n, ParentAt (look c1.tree) w v n → raw n ≠ raw y))
    (Mid1 := fun w c c1 => DRel fam w c c1 ∧ ex c.tree w = true ∧
      (∀ n ∈ c1.list, ¬ w ++ [true] <+: path n) ∧
      (∀ v n, v <+: w → look c1.tree v = some n → n ∈ c1.list ∧ n.family ≠ fam) ∧
      (∀ y, look c1.tree w = some y → ∀ v n, ParentAt (look c1.tree) w v n → raw n ≠ raw y) ∧
      CleanBelow fam (look c1.tree) (w ++ [false])) ?_ ?_ ?_ ?_ ?_ ?_ ?_
  · intro w c h; exact ⟨h.wf, h.exw⟩
  · -- deleted node
    intro w c net z o h hs
    obtain ⟨rfl, rfl, rfl⟩ := sub_deleted h.wf hs
    refine ⟨DRel.refl h, fun v n a b d => (h.anc v n a b d).1, ?_⟩
    intro u y hu hy
    exfalso
    obtain ⟨v, rfl⟩ := hu
    rw [← look_sub, hs] at hy
    cases v with
    | nil => simp [look] at hy
    | cons b v => cases b <;> simp [look] at hy
  · -- skipped
    intro w c n h hl hf
    refine ⟨DRel.refl h, fun v n a b d => (h.anc v n a b d).1, ?_⟩
    intro u y hu hy hall
    exact absurd (by simpa using hf) (hall w n hu hl)
  · -- no network
    intro w c h hl
    refine ⟨DRel.refl h, h.exw, ?_, ?_, ?_⟩
    · intro n hn
      exact ⟨fun e => h.out n hn ((List.prefix_append _ _).trans e), fun e => h.out n hn ((List.prefix_append _ _).trans e)⟩
    · intro v n hv hln
      refine h.anc v n hv ?_ hln
      rintro rfl
      rw [hl] at hln; cases hln
    · intro y hy; rw [hl] at hy; cases hy
  · -- callback
    intro w c x h hl hf
    obtain ⟨hbx, hpx⟩ := look_block h.wf hl
    subst hpx
    have hfam : x.family ≠ fam := by simpa using hf
    obtain ⟨c1, g1, g2, g3, g4, g5, g6⟩ := dedupLoop_spec h.wf hl c.list.length c.list rfl h.asc h.mem h.out
      (fun v n a b d => (h.anc v n a b d).1)
    refine ⟨c1, g1, ?_⟩
    rcases g6 with ⟨v, n, q1, q2, q3, q4⟩ | ⟨q1, q2, q3, q4⟩
    · refine ⟨⟨g2, g4, g3, ?_, fun n hn => .inl (q4 n hn), ?_, ?_, ?_, sameRes_delete hl q1 q2 q3,
        fun hn => absurd q2 (hn _ x v n hl q1)⟩, h.exw, ?_, ?_, ?_⟩
      · intro k hk
        rw [q3, if_neg]
        · exact h.mem k (q4 k hk)
        · intro e; exact h.out k (q4 k hk) (e ▸ List.prefix_refl _)
      · intro u hu
        rw [q3, if_neg]
        rintro rfl; exact hu (List.prefix_refl _)
      · intro u; rw [q3]; split
        · rename_i e; rw [e]; exact .inr ⟨rfl, x, hl, hfam⟩
        · exact .inl rfl
      · intro v' k' hk'
        by_cases e : v' = path x
        · subst e
          exact ⟨v, n, q1.1, by rw [q3, if_neg q1.2.1]; exact q1.2.2.1⟩
        · exact ⟨v', k', List.prefix_refl _, by rw [q3, if_neg e]; exact hk'⟩
      · intro k hk
        have := h.out k (q4 k hk)
        exact ⟨fun e => this ((List.prefix_append _ _).trans e), fun e => this ((List.prefix_append _ _).trans e)⟩
      · intro u k hu hk
        rw [q3] at hk
        split at hk
        · cases hk
        · rename_i hne
          exact ⟨g5 u k hu hne hk, (h.anc u k hu hne hk).2⟩
      · intro y hy
        rw [q3, if_pos rfl] at hy; cases hy
    · have hlook : look c1.tree = look c.tree := funext q2
      refine ⟨⟨g2, g4, g3, ?_, ?_, ?_, ?_, fun v k hk => ⟨v, k, List.prefix_refl _, by rw [hlook]; exact hk⟩,
        (SameRes.refl _).congr q2, fun _ => hlook⟩, h.exw, ?_, ?_, ?_⟩
      · intro k hk
        rw [hlook]
        rcases q3 k hk with h' | rfl
        · exact h.mem k h'
        · exact hl
      · intro k hk
        rcases q3 k hk with h' | rfl
        · exact .inl h'
        · exact .inr (List.prefix_refl _)
      · intro u _; exact q2 u
      · intro u; exact .inl (q2 u)
      · intro k hk
        rcases q3 k hk with h' | rfl
        · have := h.out k h'
          exact ⟨fun e => this ((List.prefix_append _ _).trans e), fun e => this ((List.prefix_append _ _).trans e)⟩
        · refine ⟨fun e => ?_, fun e => ?_⟩ <;> (have := e.length_le; simp at this)
      · intro u k hu hk
        rw [hlook] at hk
        by_cases hne : u = path x
        · subst hne
          rw [hl] at hk; cases hk
          exact ⟨q4, hfam⟩
        · exact ⟨g5 u k hu hne hk, (h.anc u k hu hne hk).2⟩
      · intro y hy v n hp
        rw [hlook] at hy hp
        rw [hl] at hy; cases hy
        exact q1 v n hp
  · -- zero child
    rintro w c c1 ⟨hrel, hexw, hout, hanc, hself⟩
    refine ⟨hrel.exm w hexw, ?_, ?_⟩
    · intro hno
      refine ⟨hrel, hexw, fun n hn => (hout n hn).2, hanc, hself, ?_⟩
      intro u y hu hy
      exfalso
      have := ex_prefix hu (look_ex hy)
      rw [hno] at this; cases this
    · intro hyes
      refine ⟨⟨hrel.wf, hyes, hrel.asc, hrel.mem, fun n hn => (hout n hn).1, ?_⟩, ?_⟩
      · intro v n a b d
        exact hanc v n (prefix_concat_ne.mp ⟨a, b⟩) d
      · intro c2 hp
        have hfr : ∀ u, u <+: w → look c2.tree u = look c1.tree u := by
          intro u hu
          apply hp.frame
          intro e
          have := (e.trans hu).length_le
          simp at this
        refine ⟨hrel.trans hp.toDRel (List.prefix_append _ _), hexw, ?_, ?_, ?_, hp.clean⟩
        · intro n hn e
          rcases hp.lst n hn with h' | h'
          · exact (hout n h').2 e
          · exact not_both h' e
        · intro v n hv hn
          refine ⟨?_, ?_⟩
          · have := (prefix_concat_ne (b := false)).mpr hv
            exact hp.anc v n this.1 this.2 hn
          · rw [hfr v hv] at hn
            exact (hanc v n hv hn).2
        · intro y hy v n hpa
          rw [hfr w (List.prefix_refl _)] at hy
          exact hself y hy v n (parentAt_congr hfr hpa)
  · -- one child
    rintro w c c1 ⟨hrel, hexw, hout, hanc, hself, hcl⟩
    have hfin : ∀ c2 : TreeCtx, DRel fam w c c2 → (∀ u, ¬ w ++ [true] <+: u → look c2.tree u = look c1.tree u) →
        CleanBelow fam (look c2.tree) (w ++ [true]) → (∀ v n, v <+: w → look c2.tree v = some n → n ∈ c2.list) →
        DPost fam w c c2 := by
      intro c2 hr hfr hc ha
      refine ⟨hr, fun v n a b d => ha v n a d, ?_⟩
      intro u y hu hy hall v n hpa
      rcases child_cases hu with rfl | h0 | h1
      · have hfr' : ∀ v, v <+: u → look c2.tree v = look c1.tree v := by
          intro v hv; apply hfr; intro e
          have := (e.trans hv).length_le; simp at this
        rw [hfr' u (List.prefix_refl _)] at hy
        exact hself y hy v n (parentAt_congr hfr' hpa)
      · have hfr' : ∀ v, v <+: u → look c2.tree v = look c1.tree v := by
          intro v hv; apply hfr; intro e
          exact not_both h0 (e.trans hv)
        rw [hfr' u (List.prefix_refl _)] at hy
        refine hcl u y h0 hy ?_ v n (parentAt_congr hfr' hpa)
        intro v' k hv' hk
        rw [← hfr' v' hv'] at hk
        exact hall v' k hv' hk
      · exact hc u y h1 hy hall v n hpa
    refine ⟨hrel.exm w hexw, ?_, ?_⟩
    · intro hno
      refine hfin c1 hrel (fun _ _ => rfl) ?_ (fun v n a b => (hanc v n a b).1)
      intro u y hu hy
      exfalso
      have := ex_prefix hu (look_ex hy)
      rw [hno] at this; cases this
    · intro hyes
      refine ⟨⟨hrel.wf, hyes, hrel.asc, hrel.mem, hout, ?_⟩, ?_⟩
      · intro v n a b d
        exact hanc v n (prefix_concat_ne.mp ⟨a, b⟩) d
      · intro c2 hp
        refine hfin c2 (hrel.trans hp.toDRel (List.prefix_append _ _)) hp.frame hp.clean ?_
        intro v n hv hn
        have := (prefix_concat_ne (b := true)).mpr hv
        exact hp.anc v n this.1 this.2 hn

theorem ex_root {t : Tree} (h : WF t) : ex t [] = true := by
  cases t with
  | nil => exact absurd h.alive (by simp [Alive])
  | node d n z o => rfl

theorem dedupOne_spec {t : Tree} (h : WF t) (fam : Family) :
    ∃ t', dedupOne t fam = .ok t' ∧ WF t' ∧
      (∀ u, look t' u = look t u ∨ (look t' u = none ∧ ∃ k, look t u = some k ∧ k.family ≠ fam)) ∧
      (∀ v k, look t v = some k → ∃ v' k', v' <+: v ∧ look t' v' = some k') ∧
      (∀ u, ex t u = true → ex t' u = true) ∧
      SameRes (look t) (look t') ∧ CleanBelow fam (look t') [] := by
  obtain ⟨c', h1, h2⟩ := dedup_walk fam walkFuel [] ⟨t, []⟩ ⟨h, ex_root h, List.Pairwise.nil, by simp, by simp, by
    intro v n hv hne
    exact absurd (List.prefix_nil.mp hv) hne⟩ (by decide)
  exact ⟨c'.tree, by simp only [dedupOne, h1], h2.wf, h2.sub, h2.cov, h2.exm, h2.same, h2.clean⟩

theorem dedupOne_idle {t t' : Tree} (h : WF t) {fam : Family} (hd : dedupOne t fam = .ok t') (hn : NoTwice (look t)) :
    look t' = look t := by
  obtain ⟨c', h1, h2⟩ := dedup_walk fam walkFuel [] ⟨t, []⟩ ⟨h, ex_root h, List.Pairwise.nil, by simp, by simp, by
    intro v n hv hne
    exact absurd (List.prefix_nil.mp hv) hne⟩ (by decide)
  simp only [dedupOne, h1] at hd
  cases hd
  exact h2.idle hn

/-- Where nothing is repeated nothing is removed. -/
theorem treeDedup_idle {t t' : Tree} (h : WF t) (hd : treeDedup t = .ok t') (hn : NoTwice (look t)) : look t' = look t := by
  obtain ⟨t1, a1, a2, -⟩ := dedupOne_spec h .inet6
  simp only [treeDedup, a1] at hd
  have e1 := dedupOne_idle h a1 hn
  have e2 := dedupOne_idle a2 hd (by rw [e1]; exact hn)
  rw [e2, e1]

/-- Both passes. -/
theorem treeDedup_spec {t : Tree} (h : WF t) :
    ∃ t', treeDedup t = .ok t' ∧ WF t' ∧ (∀ u, look t' u = look t u ∨ look t' u = none) ∧
      SameRes (look t) (look t') ∧ CleanBelow .inet (look t') [] ∧ CleanBelow .inet6 (look t') [] := by
  obtain ⟨t1, a1, a2, a3, -, -, a4, a5⟩ := dedupOne_spec h .inet6
  obtain ⟨t2, b1, b2, b3, b4, -, b5, b6⟩ := dedupOne_spec a2 .inet
  refine ⟨t2, by simp only [treeDedup, a1, b1], b2, ?_, a4.trans b5, b6, ?_⟩
  · intro u
    rcases b3 u with e | e
    · rw [e]; exact (a3 u).imp id And.left
    · exact .inr e.1
  · intro u y hu hy hall v n hpa
    have hv6 : ∀ v k, v <+: u → look t1 v = some k → k.family ≠ .inet6 := by
      intro v k hv hk hf
      obtain ⟨v', k', c1, c2⟩ := b4 v k hk
      refine hall v' k' (c1.trans hv) c2 ?_
      have h1 := block_v4_iff (look_block a2 hk).1
      have h2 := block_v4_iff (look_block b2 c2).1
      rw [(look_block a2 hk).2] at h1
      rw [(look_block b2 c2).2] at h2
      cases hk' : k'.family with
      | inet6 => rfl
      | inet =>
        have := h1.mpr ((h2.mp hk').trans c1)
        rw [hf] at this; cases this
    have hsame : ∀ v, v <+: u → look t2 v = look t1 v := by
      intro v hv
      rcases b3 v with e | ⟨-, k, e1, e2⟩
      · exact e
      · have := hv6 v k hv e1
        cases hk : k.family <;> simp_all
    rw [hsame u (List.prefix_refl _)] at hy
    exact a5 u y hu hy hv6 v n (parentAt_congr hsame hpa)

end Loc
