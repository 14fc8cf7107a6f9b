import Verif.Lemmas.Tree
/-
Longest-prefix matching on path maps, and the two transformations performed by the clean-up.
-/
namespace Loc
open Spec

/-- Properties as stored (raw bytes). -/
def raw (n : Network) : Byte × Byte × BitVec 32 × BitVec 32 := (n.cc0, n.cc1, n.asn, n.flags)

theorem sameRaw_iff {m n : Network} : SameRaw m n ↔ raw m = raw n := by
  unfold SameRaw raw
  simp only [Prod.mk.injEq]

theorem raw_props {m n : Network} (h : raw m = raw n) : props m = props n := (sameRaw_iff.mpr h).props

abbrev PathMap := List Bool → Option Network

/-- `n`, at path `v`, is the deepest entry on the way to `w`. -/
def NearestAt (f : PathMap) (w v : List Bool) (n : Network) : Prop :=
  v <+: w ∧ f v = some n ∧ ∀ u, v <+: u → u <+: w → u ≠ v → f u = none

def Resolve (f : PathMap) (w : List Bool) (p : Byte × Byte × BitVec 32 × BitVec 32) : Prop :=
  ∃ v n, NearestAt f w v n ∧ raw n = p

/-- Same resolution for all full-length paths. -/
def SameRes (f g : PathMap) : Prop := ∀ w : List Bool, w.length = 128 → ∀ p, Resolve f w p ↔ Resolve g w p

theorem SameRes.refl (f : PathMap) : SameRes f f := fun _ _ _ => Iff.rfl
theorem SameRes.trans {f g h : PathMap} (a : SameRes f g) (b : SameRes g h) : SameRes f h :=
  fun w hw p => (a w hw p).trans (b w hw p)
theorem SameRes.congr {f g g' : PathMap} (a : SameRes f g) (h : ∀ u, g' u = g u) : SameRes f g' := by
  have : g' = g := funext h
  rw [this]; exact a

theorem prefix_antisymm {x y : List Bool} (h1 : x <+: y) (h2 : y <+: x) : x = y :=
  h1.eq_of_length (Nat.le_antisymm h1.length_le h2.length_le)

/-- The entry at `x` has entry `n` at `v` as its closest proper ancestor. -/
def ParentAt (f : PathMap) (x v : List Bool) (n : Network) : Prop :=
  v <+: x ∧ v ≠ x ∧ f v = some n ∧ ∀ u, v <+: u → u <+: x → u ≠ v → u ≠ x → f u = none

/-- Removing an entry with the properties of its closest ancestor changes nothing. -/
theorem sameRes_delete {f g : PathMap} {x v : List Bool} {y n : Network} (hy : f x = some y)
    (hv : ParentAt f x v n) (hr : raw n = raw y) (hg : ∀ u, g u = if u = x then none else f u) :
    SameRes f g := by
  obtain ⟨hvx, hne, hvn, hbet⟩ := hv
  have hgx : g x = none := by rw [hg, if_pos rfl]
  have hgn : ∀ u, u ≠ x → g u = f u := fun u hu => by rw [hg, if_neg hu]
  intro w hw p
  constructor
  · rintro ⟨v', k, ⟨h1, h2, h3⟩, rfl⟩
    by_cases hvx' : v' = x
    · subst hvx'
      rw [hy] at h2; cases h2
      refine ⟨v, n, ⟨hvx.trans h1, by rw [hgn v hne]; exact hvn, ?_⟩, hr⟩
      intro u hu1 hu2 hu3
      by_cases hux : u = v'
      · subst hux; exact hgx
      · rw [hgn u hux]
        rcases prefix_or_prefix hu2 h1 with h | h
        · exact hbet u hu1 h hu3 hux
        · exact h3 u h hu2 hux
    · refine ⟨v', k, ⟨h1, by rw [hgn v' hvx']; exact h2, ?_⟩, rfl⟩
      intro u hu1 hu2 hu3
      by_cases hux : u = x
      · subst hux; exact hgx
      · rw [hgn u hux]; exact h3 u hu1 hu2 hu3
  · rintro ⟨v', k, ⟨h1, h2, h3⟩, rfl⟩
    have hvx' : v' ≠ x := by rintro rfl; rw [hgx] at h2; cases h2
    rw [hgn v' hvx'] at h2
    by_cases hc : x <+: w ∧ v' <+: x
    · obtain ⟨hxw, hv'x⟩ := hc
      have hvv : v' = v := by
        rcases prefix_or_prefix hv'x hvx with h | h
        · by_cases e : v' = v
          · exact e
          · have := h3 v h (hvx.trans hxw) (fun e' => e e'.symm)
            rw [hgn v hne, hvn] at this; cases this
        · by_cases e : v' = v
          · exact e
          · have := hbet v' h hv'x e hvx'
            rw [h2] at this; cases this
      subst hvv
      rw [hvn] at h2; cases h2
      refine ⟨x, y, ⟨hxw, hy, ?_⟩, hr.symm⟩
      intro u hu1 hu2 hu3
      rw [← hgn u hu3]
      refine h3 u (hv'x.trans hu1) hu2 ?_
      rintro rfl
      exact hvx' (prefix_antisymm hv'x hu1)
    · refine ⟨v', k, ⟨h1, h2, ?_⟩, rfl⟩
      intro u hu1 hu2 hu3
      have hux : u ≠ x := by rintro rfl; exact hc ⟨hu2, hu1⟩
      rw [← hgn u hux]
      exact h3 u hu1 hu2 hu3

/-- Replacing two sibling entries with equal properties by an entry at their parent changes
    nothing for full-length paths. -/
theorem sameRes_merge {f g : PathMap} {v : List Bool} {n0 n1 m : Network}
    (hvl : v.length < 128) (hv : f v = none)
    (h0 : f (v ++ [false]) = some n0) (h1 : f (v ++ [true]) = some n1)
    (hr0 : raw m = raw n0) (hr1 : raw m = raw n1)
    (hg : ∀ u, g u = if u = v then some m else if u = v ++ [false] ∨ u = v ++ [true] then none else f u) :
    SameRes f g := by
  have hgv : g v = some m := by rw [hg, if_pos rfl]
  have hne : ∀ b : Bool, v ++ [b] ≠ v := by intro b e; have := congrArg List.length e; simp at this
  have hgc : ∀ b : Bool, g (v ++ [b]) = none := by
    intro b
    rw [hg, if_neg (hne b), if_pos (by cases b <;> simp)]
  have hgn : ∀ u, u ≠ v → (∀ b : Bool, u ≠ v ++ [b]) → g u = f u := by
    intro u h1 h2
    rw [hg, if_neg h1, if_neg (by rintro (h | h); exacts [h2 _ h, h2 _ h])]
  have hfc : ∀ b : Bool, ∃ k, f (v ++ [b]) = some k ∧ raw m = raw k := by
    intro b; cases b
    · exact ⟨n0, h0, hr0⟩
    · exact ⟨n1, h1, hr1⟩
  intro w hw p
  constructor
  · rintro ⟨v', k, ⟨g1, g2, g3⟩, rfl⟩
    by_cases hc : v <+: w
    · obtain ⟨b, hb⟩ : ∃ b, v ++ [b] <+: w := by
        obtain ⟨t, rfl⟩ := hc
        cases t with
        | nil => simp at hw; omega
        | cons b t => exact ⟨b, t, by simp⟩
      obtain ⟨kb, hkb, hrb⟩ := hfc b
      by_cases e : v' = v ++ [b]
      · subst e
        rw [hkb] at g2; cases g2
        refine ⟨v, m, ⟨hc, hgv, ?_⟩, hrb⟩
        intro u hu1 hu2 hu3
        by_cases hub : ∃ c : Bool, u = v ++ [c]
        · obtain ⟨c, rfl⟩ := hub; exact hgc c
        · rw [hgn u hu3 (fun c hc => hub ⟨c, hc⟩)]
          refine g3 u ?_ hu2 (fun e => hub ⟨b, e⟩)
          rcases prefix_or_prefix hu2 hb with h | h
          · rcases List.prefix_concat_iff.mp h with h | h
            · exact absurd ⟨b, h⟩ hub
            · exact absurd (prefix_antisymm h hu1) hu3
          · exact h
      · have hlong : v ++ [b] <+: v' := by
          rcases prefix_or_prefix hb g1 with h | h
          · exact h
          · have := g3 (v ++ [b]) h hb (fun e' => e e'.symm)
            rw [hkb] at this; cases this
        have hv'v : v' ≠ v := by
          rintro rfl
          have := hlong.length_le; simp at this
        have hnc : ∀ c : Bool, v' ≠ v ++ [c] := by
          rintro c rfl
          exact e (hlong.eq_of_length (by simp)).symm
        refine ⟨v', k, ⟨g1, by rw [hgn v' hv'v hnc]; exact g2, ?_⟩, rfl⟩
        intro u hu1 hu2 hu3
        have hvu : v ++ [b] <+: u := hlong.trans hu1
        have hne2 : u ≠ v := by rintro rfl; have := hvu.length_le; simp at this
        rw [hgn u hne2]
        · exact g3 u hu1 hu2 hu3
        · rintro c rfl
          have e3 : v ++ [b] = v ++ [c] := hvu.eq_of_length (by simp)
          exact hu3 (prefix_antisymm (e3 ▸ hlong) hu1)
    · have hag : ∀ u, u <+: w → g u = f u := by
        intro u hu
        refine hgn u (by rintro rfl; exact hc hu) (by rintro c rfl; exact hc ((List.prefix_append _ _).trans hu))
      exact ⟨v', k, ⟨g1, by rw [hag v' g1]; exact g2, fun u a b c => by rw [hag u b]; exact g3 u a b c⟩, rfl⟩
  · rintro ⟨v', k, ⟨g1, g2, g3⟩, rfl⟩
    by_cases hc : v <+: w
    · obtain ⟨b, hb⟩ : ∃ b, v ++ [b] <+: w := by
        obtain ⟨t, rfl⟩ := hc
        cases t with
        | nil => simp at hw; omega
        | cons b t => exact ⟨b, t, by simp⟩
      obtain ⟨kb, hkb, hrb⟩ := hfc b
      by_cases e : v' = v
      · subst e
        rw [hgv] at g2; cases g2
        refine ⟨v' ++ [b], kb, ⟨hb, hkb, ?_⟩, hrb.symm⟩
        intro u hu1 hu2 hu3
        have hne2 : u ≠ v' := by rintro rfl; have := hu1.length_le; simp at this
        rw [← hgn u hne2]
        · exact g3 u ((List.prefix_append _ _).trans hu1) hu2 hne2
        · rintro c rfl
          exact hu3 (hu1.eq_of_length (by simp)).symm
      · have hnc : ∀ c : Bool, v' ≠ v ++ [c] := by
          rintro c rfl; rw [hgc] at g2; cases g2
        have hlong : v <+: v' := by
          rcases prefix_or_prefix hc g1 with h | h
          · exact h
          · have := g3 v h hc (fun e' => e e'.symm)
            rw [hgv] at this; cases this
        rw [hgn v' e hnc] at g2
        refine ⟨v', k, ⟨g1, g2, ?_⟩, rfl⟩
        intro u hu1 hu2 hu3
        have hvu : v <+: u := hlong.trans hu1
        by_cases hub : ∃ c : Bool, u = v ++ [c]
        · exfalso
          obtain ⟨c, rfl⟩ := hub
          rcases List.prefix_concat_iff.mp hu1 with h | h
          · exact hnc c h
          · exact e (prefix_antisymm h hlong)
        · have hne2 : u ≠ v := by
            rintro rfl
            exact hu3 (prefix_antisymm hlong hu1)
          rw [← hgn u hne2 (fun c hc => hub ⟨c, hc⟩)]
          exact g3 u hu1 hu2 hu3
    · have hag : ∀ u, u <+: w → g u = f u := by
        intro u hu
        refine hgn u (by rintro rfl; exact hc hu) (by rintro c rfl; exact hc ((List.prefix_append _ _).trans hu))
      exact ⟨v', k, ⟨g1, by rw [← hag v' g1]; exact g2, fun u a b c => by rw [← hag u b]; exact g3 u a b c⟩, rfl⟩

/-- Induction rule for walks over a tree that is modified by the callback. -/
theorem treeWalk_rule {S : Type} {tree : S → Tree} {filter : Network → Bool} {callback : Network → S → Res S}
    {Pre : List Bool → S → Prop} {Mid0 Mid1 Post : List Bool → S → S → Prop}
    (hpre : ∀ w s, Pre w s → WF (tree s) ∧ ex (tree s) w = true)
    (hdel : ∀ w s net z o, Pre w s → (tree s).sub w = .node true net z o → Post w s s)
    (hfilt : ∀ w s n, Pre w s → look (tree s) w = some n → filter n = true → Post w s s)
    (hnone : ∀ w s, Pre w s → look (tree s) w = none → Mid0 w s s)
    (hcb : ∀ w s n, Pre w s → look (tree s) w = some n → filter n = false →
      ∃ s1, callback n s = .ok s1 ∧ Mid0 w s s1)
    (hm0 : ∀ w s s1, Mid0 w s s1 → ex (tree s1) w = true ∧
      (ex (tree s1) (w ++ [false]) = false → Mid1 w s s1) ∧
      (ex (tree s1) (w ++ [false]) = true → Pre (w ++ [false]) s1 ∧
        ∀ s2, Post (w ++ [false]) s1 s2 → Mid1 w s s2))
    (hm1 : ∀ w s s1, Mid1 w s s1 → ex (tree s1) w = true ∧
      (ex (tree s1) (w ++ [true]) = false → Post w s s1) ∧
      (ex (tree s1) (w ++ [true]) = true → Pre (w ++ [true]) s1 ∧
        ∀ s2, Post (w ++ [true]) s1 s2 → Post w s s2)) :
    ∀ fuel w s, Pre w s → 128 < w.length + fuel → ∃ s', treeWalk tree filter callback fuel w s = .ok s' ∧ Post w s s' := by
  intro fuel
  induction fuel with
  | zero =>
    intro w s h hf
    have := ex_length (hpre w s h).1 (hpre w s h).2
    omega
  | succ fuel ih =>
    intro w s h hf
    obtain ⟨hwf, hex⟩ := hpre w s h
    rw [ex_iff_sub] at hex
    have exc : ∀ (t : Tree) (b : Bool), ((t.sub w).sub [b]).isNil = !ex t (w ++ [b]) := by
      intro t b
      rw [← sub_append]
      have := ex_iff_sub t (w ++ [b])
      cases hs : t.sub (w ++ [b]) with
      | nil => rw [hs] at this; cases hx : ex t (w ++ [b]) <;> simp_all [Tree.isNil]
      | node d n z o => rw [hs] at this; cases hx : ex t (w ++ [b]) <;> simp_all [Tree.isNil]
    have hcont : ∀ s1, Mid0 w s s1 → ∃ s', (match (if (((tree s1).sub w).sub [false]).isNil then .ok s1
            else treeWalk tree filter callback fuel (w ++ [false]) s1) with
        | .error e => .error e
        | .ok s =>
          if (((tree s).sub w).sub [true]).isNil then .ok s
          else treeWalk tree filter callback fuel (w ++ [true]) s : Res S) = .ok s' ∧ Post w s s' := by
      intro s1 hmid
      obtain ⟨e1, e2, e3⟩ := hm0 w s s1 hmid
      have hfirst : ∃ s2, (if (((tree s1).sub w).sub [false]).isNil then .ok s1
            else treeWalk tree filter callback fuel (w ++ [false]) s1 : Res S) = .ok s2 ∧ Mid1 w s s2 := by
        rw [exc]
        cases hx : ex (tree s1) (w ++ [false]) with
        | false => exact ⟨s1, rfl, e2 hx⟩
        | true =>
          obtain ⟨p1, p2⟩ := e3 hx
          obtain ⟨s2, q1, q2⟩ := ih (w ++ [false]) s1 p1 (by simp; omega)
          exact ⟨s2, q1, p2 s2 q2⟩
      obtain ⟨s2, q1, q2⟩ := hfirst
      rw [q1]
      obtain ⟨f1, f2, f3⟩ := hm1 w s s2 q2
      simp only [exc]
      cases hx : ex (tree s2) (w ++ [true]) with
      | false => exact ⟨s2, rfl, f2 hx⟩
      | true =>
        obtain ⟨p1, p2⟩ := f3 hx
        obtain ⟨s3, r1, r2⟩ := ih (w ++ [true]) s2 p1 (by simp; omega)
        exact ⟨s3, r1, p2 s3 r2⟩
    have hlk := look_sub (tree s) w []
    rw [List.append_nil] at hlk
    unfold treeWalk
    cases hs : (tree s).sub w with
    | nil => exact absurd hs hex
    | node d net z o =>
      rw [hs] at hlk
      simp only [look] at hlk
      cases d with
      | true => exact ⟨s, rfl, hdel w s net z o h hs⟩
      | false =>
        cases net with
        | none => exact hcont s (hnone w s h hlk.symm)
        | some n =>
          by_cases hf : filter n = true
          · refine ⟨s, ?_, hfilt w s n h hlk.symm hf⟩
            simp only [hf, if_true]
          · have hf' : filter n = false := by simpa using hf
            obtain ⟨s1, c1, c2⟩ := hcb w s n h hlk.symm hf'
            simp only [hf', c1]
            exact hcont s1 c2

end Loc
