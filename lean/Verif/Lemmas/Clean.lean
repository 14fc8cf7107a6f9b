import Verif.Lemmas.TreeMerge
import Verif.Spec.Tree
/-
From path maps to collections of networks.
-/
namespace Loc
open Spec

theorem mem_networks (t : Tree) (n : Network) : n ∈ t.networks ↔ ∃ u, look t u = some n := by
  induction t with
  | nil => simp [Tree.networks]
  | node d net z o ihz iho =>
    simp only [Tree.networks, List.mem_append, ihz, iho, Option.mem_toList]
    constructor
    · rintro ((h | ⟨u, h⟩) | ⟨u, h⟩)
      · exact ⟨[], h⟩
      · exact ⟨false :: u, h⟩
      · exact ⟨true :: u, h⟩
    · rintro ⟨u, h⟩
      cases u with
      | nil => exact .inl (.inl h)
      | cons b u =>
        cases b
        · exact .inl (.inr ⟨u, h⟩)
        · exact .inr ⟨u, h⟩

theorem mem_networks_wf {t : Tree} (h : WF t) {n : Network} :
    n ∈ t.networks ↔ Block n ∧ look t (path n) = some n := by
  rw [mem_networks]
  constructor
  · rintro ⟨u, hu⟩
    obtain ⟨hb, hp⟩ := look_block h hu
    exact ⟨hb, by rw [hp]; exact hu⟩
  · rintro ⟨-, hu⟩; exact ⟨_, hu⟩

theorem good_networks {p : List Bool} {t : Tree} (h : Good p t) {n : Network} (hn : n ∈ t.networks) :
    Block n ∧ p <+: path n := by
  induction t generalizing p with
  | nil => simp [Tree.networks] at hn
  | node d net z o ihz iho =>
    obtain ⟨-, -, h3, hz, ho⟩ := h
    simp only [Tree.networks, List.mem_append, Option.mem_toList] at hn
    rcases hn with (hn | hn) | hn
    · obtain ⟨hb, hp⟩ := h3 n hn
      exact ⟨hb, by rw [hp]; exact List.prefix_refl _⟩
    · obtain ⟨hb, hp⟩ := ihz hz hn
      exact ⟨hb, (List.prefix_append _ _).trans hp⟩
    · obtain ⟨hb, hp⟩ := iho ho hn
      exact ⟨hb, (List.prefix_append _ _).trans hp⟩

theorem before_of_last_lt {m n : Network} (hm : Block m) (h : value m.last < value n.first) : Before m n := by
  have := hm.last_eq
  unfold Before; omega

/-- The walk visits the networks in ascending order. -/
theorem networks_ascending {p : List Bool} {t : Tree} (h : Good p t) : Ascending t.networks := by
  induction t generalizing p with
  | nil => exact List.Pairwise.nil
  | node d net z o ihz iho =>
    have h' := h
    obtain ⟨-, -, h3, hz, ho⟩ := h
    unfold Ascending Tree.networks
    rw [List.append_assoc, List.pairwise_append, List.pairwise_append]
    refine ⟨?_, ⟨ihz hz, iho ho, ?_⟩, ?_⟩
    · cases net <;> simp
    · intro m hm n hn
      obtain ⟨bm, pm⟩ := good_networks hz hm
      obtain ⟨bn, pn⟩ := good_networks ho hn
      exact before_of_last_lt bm (before_of_diverge bm bn pm pn)
    · intro m hm n hn
      rw [Option.mem_toList] at hm
      obtain ⟨bm, pm⟩ := h3 m hm
      have key : ∀ b, Block n ∧ p ++ [b] <+: path n → Before m n := by
        rintro b ⟨bn, pn⟩
        refine before_of_prefix bm bn (by rw [pm]; exact (List.prefix_append _ _).trans pn) ?_
        rw [pm]; intro e
        have := pn.length_le
        rw [← e] at this; simp at this
      rcases List.mem_append.mp hn with hn | hn
      · exact key _ (good_networks hz hn)
      · exact key _ (good_networks ho hn)

/-- Most specific network = deepest entry on the path of the address. -/
theorem mostSpecific_iff {t : Tree} (h : WF t) (a : Addr) (n : Network) :
    MostSpecific (· ∈ t.networks) a n ↔ ∃ v, NearestAt (look t) (bits a) v n := by
  constructor
  · rintro ⟨h1, h2, h3⟩
    obtain ⟨hb, hl⟩ := (mem_networks_wf h).mp h1
    refine ⟨path n, (contains_iff_path hb a).mp h2, hl, ?_⟩
    intro u hu1 hu2 hu3
    cases e : look t u with
    | none => rfl
    | some k =>
      exfalso
      obtain ⟨hbk, hpk⟩ := look_block h e
      have := h3 k ((mem_networks t k).mpr ⟨u, e⟩) ((contains_iff_path hbk a).mpr (by rw [hpk]; exact hu2))
      apply hu3
      refine (hu1.eq_of_length ?_).symm
      have h4 := hu1.length_le
      have e1 := length_path hb.le
      have e2 := length_path hbk.le
      rw [hpk] at e2
      omega
  · rintro ⟨v, h1, h2, h3⟩
    obtain ⟨hb, hp⟩ := look_block h h2
    refine ⟨(mem_networks t n).mpr ⟨v, h2⟩, (contains_iff_path hb a).mpr (by rw [hp]; exact h1), ?_⟩
    intro m hm hc
    obtain ⟨hbm, hlm⟩ := (mem_networks_wf h).mp hm
    have hm' := (contains_iff_path hbm a).mp hc
    rcases prefix_or_prefix hm' h1 with h' | h'
    · have := h'.length_le
      rw [← hp, length_path hbm.le, length_path hb.le] at this
      exact this
    · by_cases e : path m = v
      · have := congrArg List.length (e.trans hp.symm)
        rw [length_path hbm.le, length_path hb.le] at this
        omega
      · rw [h3 _ h' hm' e] at hlm; cases hlm

theorem resolves_iff {t : Tree} (h : WF t) (a : Addr) (p : CStr × BitVec 32 × BitVec 32) :
    Resolves (· ∈ t.networks) a p ↔ ∃ r, Resolve (look t) (bits a) r ∧ ∀ n, raw n = r → props n = p := by
  constructor
  · rintro ⟨n, h1, h2⟩
    obtain ⟨v, h3⟩ := (mostSpecific_iff h a n).mp h1
    exact ⟨raw n, ⟨v, n, h3, rfl⟩, fun k hk => by rw [raw_props hk]; exact h2⟩
  · rintro ⟨r, ⟨v, n, h3, h4⟩, h2⟩
    exact ⟨n, (mostSpecific_iff h a n).mpr ⟨v, h3⟩, h2 n h4⟩

/-- Same resolution of all paths is same look-up result for all addresses. -/
theorem resolves_of_sameRes {t t' : Tree} (h : WF t) (h' : WF t') (hs : SameRes (look t) (look t')) (a : Addr)
    (p : CStr × BitVec 32 × BitVec 32) : Resolves (· ∈ t.networks) a p ↔ Resolves (· ∈ t'.networks) a p := by
  rw [resolves_iff h, resolves_iff h']
  have hl : (bits a).length = 128 := by simp
  constructor
  · rintro ⟨r, h1, h2⟩; exact ⟨r, (hs _ hl r).mp h1, h2⟩
  · rintro ⟨r, h1, h2⟩; exact ⟨r, (hs _ hl r).mpr h1, h2⟩

/-- Some network contains the address iff there is a most specific one. -/
theorem covered_iff {t : Tree} (h : WF t) (a : Addr) :
    (∃ n ∈ t.networks, Contains n a) ↔ ∃ p, Resolves (· ∈ t.networks) a p := by
  constructor
  · rintro ⟨n, hn, hc⟩
    have key : ∀ k, ∀ n ∈ t.networks, Contains n a → 128 - n.pfx ≤ k → ∃ p, Resolves (· ∈ t.networks) a p := by
      intro k
      induction k with
      | zero =>
        intro n hn hc hk
        refine ⟨_, n, ⟨hn, hc, ?_⟩, rfl⟩
        intro m hm _
        have := ((mem_networks_wf h).mp hm).1.le
        omega
      | succ k ih =>
        intro n hn hc hk
        by_cases hex : ∃ m ∈ t.networks, Contains m a ∧ n.pfx < m.pfx
        · obtain ⟨m, hm, hmc, hlt⟩ := hex
          exact ih m hm hmc (by have := ((mem_networks_wf h).mp hm).1.le; omega)
        · refine ⟨_, n, ⟨hn, hc, ?_⟩, rfl⟩
          intro m hm hmc
          by_cases hlt : n.pfx < m.pfx
          · exact absurd ⟨m, hm, hmc, hlt⟩ hex
          · omega
    exact key _ n hn hc (Nat.le_refl _)
  · rintro ⟨p, n, ⟨h1, h2, -⟩, -⟩; exact ⟨n, h1, h2⟩

/-- Every value after merging was there before. -/
theorem MergeStar.rawMem {f g : PathMap} (a : MergeStar f g) {u : List Bool} {n : Network} (h : g u = some n) :
    ∃ v k, f v = some k ∧ raw k = raw n := by
  induction a with
  | refl => exact ⟨u, n, h, rfl⟩
  | head h1 _ ih =>
    obtain ⟨v', k', e1, e2⟩ := ih h
    obtain ⟨v, n0, n1, m, a1, a2, a3, a4, a5, a6, -, -, -, a7⟩ := h1
    rw [a7] at e1
    split at e1
    · cases e1; exact ⟨_, n0, a3, a5.symm.trans e2⟩
    · split at e1
      · cases e1
      · exact ⟨v', k', e1, e2⟩

/-- Merging keeps the absence of repeated properties. -/
theorem cleanBelow_merge {fam : Family} {f g : PathMap} (h : MergeOne f g) (hc : CleanBelow fam f []) :
    CleanBelow fam g [] := by
  obtain ⟨v, n0, n1, m, a1, a2, a3, a4, a5, a6, -, -, ⟨hf0, hf1⟩, a7⟩ := h
  have gv : g v = some m := by rw [a7, if_pos rfl]
  have gb : ∀ b : Bool, g (v ++ [b]) = none := by
    intro b
    have : v ++ [b] ≠ v := by intro e; have := congrArg List.length e; simp at this
    rw [a7, if_neg this, if_pos]
    cases b <;> simp
  have fb : ∀ b : Bool, ∃ nb, f (v ++ [b]) = some nb ∧ raw m = raw nb ∧ m.family = nb.family := by
    intro b
    cases b
    · exact ⟨n0, a3, a5, hf0⟩
    · exact ⟨n1, a4, a6, hf1⟩
  have gf : ∀ u, u ≠ v → (∀ b, u ≠ v ++ [b]) → g u = f u := by
    intro u h1 h2
    rw [a7, if_neg h1, if_neg]
    rintro (e | e)
    · exact h2 _ e
    · exact h2 _ e
  -- an entry of `f` on the way corresponds to an entry of `g` of the same family on the way
  have hfam : ∀ u, (∀ x k, x <+: u → g x = some k → k.family ≠ fam) → ∀ x k, x <+: u → f x = some k → k.family ≠ fam := by
    intro u hall x k hx hk
    by_cases e : ∃ b, x = v ++ [b]
    · obtain ⟨b, rfl⟩ := e
      obtain ⟨nb, e1, -, e3⟩ := fb b
      rw [e1] at hk; cases hk
      rw [← e3]
      exact hall v m ((List.prefix_append _ _).trans hx) gv
    · by_cases e' : x = v
      · subst e'; rw [a2] at hk; cases hk
      · rw [← gf x e' (fun b eb => e ⟨b, eb⟩)] at hk
        exact hall x k hx hk
  intro u y _ hy hall v' n hpa
  obtain ⟨p1, p2, p3, p4⟩ := hpa
  have hub : ∀ b, u ≠ v ++ [b] := by rintro b rfl; rw [gb] at hy; cases hy
  have hvb : ∀ b, v' ≠ v ++ [b] := by rintro b rfl; rw [gb] at p3; cases p3
  by_cases huv : u = v
  · subst huv
    rw [gv] at hy; cases hy
    obtain ⟨nb, e1, e2, e3⟩ := fb false
    rw [e2]
    have hfv' : f v' = some n := by rw [← gf v' p2 hvb]; exact p3
    refine hc (u ++ [false]) nb List.nil_prefix e1 ?_ v' n ⟨p1.trans (List.prefix_append _ _), ?_, hfv', ?_⟩
    · intro x k hx hk
      rcases List.prefix_concat_iff.mp hx with rfl | hx
      · rw [e1] at hk; cases hk
        rw [← e3]; exact hall _ _ (List.prefix_refl _) gv
      · exact hfam u hall x k hx hk
    · exact hvb false
    · intro x hx1 hx2 hx3 hx4
      have hx : x <+: u := prefix_concat_ne.mp ⟨hx2, hx4⟩
      by_cases e : x = u
      · subst e; exact a2
      · rw [← gf x e ?_]
        · exact p4 x hx1 hx hx3 e
        · rintro b rfl; have := hx.length_le; simp at this
  · have hfu : f u = some y := by rw [← gf u huv hub]; exact hy
    by_cases hvv : v' = v
    · subst hvv
      rw [gv] at p3; cases p3
      obtain ⟨b, hb⟩ : ∃ b, v' ++ [b] <+: u := by
        obtain ⟨r, rfl⟩ := p1
        cases r with
        | nil => simp at huv
        | cons b r => exact ⟨b, by simp⟩
      obtain ⟨nb, e1, e2, e3⟩ := fb b
      rw [e2]
      refine hc u y List.nil_prefix hfu (hfam u hall) (v' ++ [b]) nb ⟨hb, (hub b).symm, e1, ?_⟩
      intro x hx1 hx2 hx3 hx4
      have hxv : x ≠ v' := by rintro rfl; have := hx1.length_le; simp at this
      have hxb : ∀ b', x ≠ v' ++ [b'] := by
        rintro b' rfl
        have := hx1.eq_of_length (by simp)
        exact hx3 this.symm
      rw [← gf x hxv hxb]
      exact p4 x ((List.prefix_append _ _).trans hx1) hx2 hxv hx4
    · have hfv : f v' = some n := by rw [← gf v' hvv hvb]; exact p3
      refine hc u y List.nil_prefix hfu (hfam u hall) v' n ⟨p1, p2, hfv, ?_⟩
      intro x hx1 hx2 hx3 hx4
      by_cases e' : x = v
      · subst e'; exact a2
      · by_cases e : ∃ b, x = v ++ [b]
        · obtain ⟨b, rfl⟩ := e
          exfalso
          have hv'v : v' <+: v := prefix_concat_ne.mp ⟨hx1, hvb b⟩
          have := p4 v hv'v ((List.prefix_append _ _).trans hx2) (fun e => hvv e.symm) (fun e => huv e.symm)
          rw [gv] at this; cases this
        · rw [← gf x e' (fun b eb => e ⟨b, eb⟩)]
          exact p4 x hx1 hx2 hx3 hx4

theorem cleanBelow_star {fam : Family} {f g : PathMap} (h : MergeStar f g) (hc : CleanBelow fam f []) :
    CleanBelow fam g [] := by
  induction h with
  | refl => exact hc
  | head h1 _ ih => exact ih (cleanBelow_merge h1 hc)

theorem look_replace (n n' : Network) (t : Tree) (u : List Bool) :
    look (t.replace n n') u = (look t u).map fun k => if k = n then n' else k := by
  induction t generalizing u with
  | nil => simp [Tree.replace]
  | node d net z o ihz iho =>
    cases u with
    | nil => rfl
    | cons b u => cases b <;> simp [Tree.replace, look, ihz, iho]

theorem good_replace {p : List Bool} {n n' : Network} (hb : Block n') (hs : Block n → path n' = path n) {t : Tree} (h : Good p t) :
    Good p (t.replace n n') := by
  induction t generalizing p with
  | nil => trivial
  | node d net z o ihz iho =>
    obtain ⟨h1, h2, h3, hz, ho⟩ := h
    refine ⟨h1, ?_, ?_, ihz hz, iho ho⟩
    · intro hd
      obtain ⟨rfl, rfl, rfl⟩ := h2 hd
      exact ⟨rfl, rfl, rfl⟩
    · intro k hk
      cases net with
      | none => cases hk
      | some j =>
        obtain ⟨bj, pj⟩ := h3 j rfl
        simp only [Option.map_some, Option.some.injEq] at hk
        subst hk
        split
        · rename_i e; subst e
          exact ⟨hb, (hs bj).trans pj⟩
        · exact ⟨bj, pj⟩

theorem countryOk_raw {m n : Network} (h : raw m = raw n) (hn : CountryOk n) : CountryOk m := by
  unfold raw at h
  simp only [Prod.mk.injEq] at h
  unfold CountryOk
  rw [h.1, h.2.1]
  exact hn

theorem ascending_ext {l l' : List Network} (h : Ascending l) (h' : Ascending l') (hm : ∀ k, k ∈ l ↔ k ∈ l') : l = l' := by
  induction l generalizing l' with
  | nil =>
    cases l' with
    | nil => rfl
    | cons b l' => exact absurd ((hm b).mpr (by simp)) (by simp)
  | cons a l ih =>
    cases l' with
    | nil => exact absurd ((hm a).mp (by simp)) (by simp)
    | cons b l' =>
      obtain ⟨ha, hl⟩ := List.pairwise_cons.mp h
      obtain ⟨hb, hl'⟩ := List.pairwise_cons.mp h'
      have hab : a = b := by
        rcases List.mem_cons.mp ((hm a).mp (by simp)) with e | e
        · exact e
        · rcases List.mem_cons.mp ((hm b).mpr (by simp)) with e' | e'
          · exact e'.symm
          · exact absurd (ha b e') (before_asymm (hb a e))
      subst hab
      congr 1
      refine ih hl hl' fun k => ?_
      have hk := hm k
      simp only [List.mem_cons] at hk
      constructor
      · intro h1
        rcases hk.mp (.inr h1) with rfl | h2
        · exact absurd (ha k h1) (before_irrefl k)
        · exact h2
      · intro h1
        rcases hk.mpr (.inr h1) with rfl | h2
        · exact absurd (hb k h1) (before_irrefl k)
        · exact h2

theorem sorted_ext {t t' : Tree} (h : WF t) (h' : WF t') (hm : ∀ k, k ∈ t.networks ↔ k ∈ t'.networks) :
    t.networks = t'.networks :=
  ascending_ext (networks_ascending h.good) (networks_ascending h'.good) hm

end Loc
