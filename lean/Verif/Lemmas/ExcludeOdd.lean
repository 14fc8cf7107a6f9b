import Verif.Lemmas.ExcludeList
/-
Excluding a list with a network that cannot be cut out.
-/
namespace Loc
open Spec

theorem collect_append (n : Network) (post : NetList) : ∀ (pre tc : NetList), excludeListCollect n tc (pre ++ post) =
    match excludeListCollect n tc pre with
    | .error e => .error e
    | .ok tc => excludeListCollect n tc post := by
  intro pre
  induction pre with
  | nil => intro tc; rfl
  | cons s pre ih =>
    intro tc
    rw [List.cons_append, excludeListCollect, excludeListCollect]
    cases listContains tc s with
    | error e => rfl
    | ok b =>
      cases b with
      | true => exact ih tc
      | false =>
        simp only
        generalize excludeToList n s tc = r
        obtain ⟨l, e⟩ := r
        cases e with
        | error e => rfl
        | ok u => exact ih l

/-- A listed network that cannot be cut out makes the exclusion fail. -/
theorem excludeList_stuck {n : Network} (hb : Block n) (hc : CountryOk n) {list : NetList} (hbl : ∀ s ∈ list, Block s)
    (hex : ∃ s ∈ list, path n <+: path s ∧ ¬ Splittable (path n) (path s)) (fuel : Nat) :
    excludeList fuel n list = .error (.err EINVAL) := by
  obtain ⟨pre, s, post, rfl, hpre, hs1, hs2⟩ : ∃ pre s post, list = pre ++ s :: post ∧
      (∀ t ∈ pre, path n <+: path t → Splittable (path n) (path t)) ∧ path n <+: path s ∧ ¬ Splittable (path n) (path s) := by
    clear hbl
    induction list with
    | nil => obtain ⟨s, hs, -⟩ := hex; cases hs
    | cons t list ih =>
      by_cases ht : path n <+: path t ∧ ¬ Splittable (path n) (path t)
      · exact ⟨[], t, list, rfl, (fun s hs => by cases hs), ht.1, ht.2⟩
      · obtain ⟨s, hs, h⟩ := hex
        rcases List.mem_cons.mp hs with rfl | hs
        · exact absurd h ht
        · obtain ⟨pre, s, post, rfl, h1, h2⟩ := ih ⟨s, hs, h⟩
          refine ⟨t :: pre, s, post, rfl, ?_, h2⟩
          intro x hx hp
          rcases List.mem_cons.mp hx with rfl | hx
          · by_contra hne
            exact ht ⟨hp, hne⟩
          · exact h1 x hx hp
  have hbs := hbl s (by simp)
  obtain ⟨r, h1, h2⟩ := excludeListCollect_spec hb hc (list := pre) (fun t ht => hbl t (by simp [ht])) hpre pre [] [] (fun s h => h)
    ⟨List.Pairwise.nil, by simp, by simp, by simp⟩
  unfold excludeList
  rw [collect_append, h1]
  simp only
  rw [excludeListCollect]
  obtain ⟨b, hcon, hcb⟩ := listContains_spec r s h2.asc
  rw [hcon]
  cases b with
  | true =>
    exfalso
    obtain ⟨y, hy, hsame⟩ := hcb.mp rfl
    obtain ⟨l, hl, w', ⟨w, b, g1, g2, rfl⟩, hp⟩ := h2.pieces y hy
    apply hs2
    intro v v1 v2 v3
    rw [(sameBlock_iff_path hbs hp.block).mp hsame, hp.path_eq] at v2 v3
    rw [List.prefix_concat_iff] at v2
    rcases v2 with v2 | v2
    · exact absurd v2 v3
    · have hwl : w <+: path l := (List.prefix_append w [b]).trans g2
      refine hpre l hl (g1.trans hwl) v v1 (v2.trans hwl) ?_
      intro e
      have a1 := v2.length_le
      have a2 := g2.length_le
      rw [e] at a1
      simp at a2
      omega
  | false =>
    simp only
    have hne : path n ≠ path s := by
      intro e
      apply hs2
      rw [← e]
      intro v v1 v2 v3
      exact absurd (v2.eq_of_length_le v1.length_le) v3
    have hex : ∃ w, path n <+: w ∧ w <+: path s ∧ w ≠ path s ∧ unsplittable w := by
      by_contra h
      exact hs2 fun w h1 h2 h3 h4 => h ⟨w, h1, h2, h3, h4⟩
    have h3 := excludeRec_stuck s hbs excludeFuel n r hb hc hex (excludeFuel_ok hbs) h2.asc (fun y hy => (h2.pieces y hy).block)
    rw [excludeToList_strict hb hbs r hs1 hne]
    generalize excludeRec n s r excludeFuel = q at h3
    obtain ⟨l, e⟩ := q
    simp only at h3
    rw [h3]

end Loc
