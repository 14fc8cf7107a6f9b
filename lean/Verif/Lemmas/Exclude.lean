import Verif.Lemmas.NetworkList
/-
Helper lemmas: `loc_network_exclude`.
-/
namespace Loc
open Spec

/-- `w'` is the sibling of a block on the way from `p` down to `o`. -/
def Sib (p o w' : List Bool) : Prop := ∃ w b, p <+: w ∧ w ++ [b] <+: o ∧ w' = w ++ [!b]

theorem prefix_concat_inj {w x : List Bool} {b c : Bool} (h1 : w ++ [b] <+: x) (h2 : w ++ [c] <+: x) : b = c := by
  obtain ⟨t1, rfl⟩ := h1
  rw [List.append_assoc, List.prefix_append_right_inj] at h2
  simp at h2
  exact h2.symm

theorem not_prefix_flip {w x : List Bool} {b : Bool} (h1 : w ++ [b] <+: x) (h2 : w ++ [!b] <+: x) : False := by
  have := prefix_concat_inj h1 h2
  cases b <;> simp at this

theorem prefix_of_diverge {p o x w : List Bool} {b : Bool} (hpo : p <+: o) (hp : p <+: x)
    (h1 : w ++ [b] <+: o) (h2 : w ++ [!b] <+: x) : p <+: w := by
  rcases prefix_or_prefix hpo h1 with h | h
  · rw [List.prefix_concat_iff] at h
    rcases h with rfl | h
    · exact (not_prefix_flip hp h2).elim
    · exact h
  · exact (not_prefix_flip (h.trans hp) h2).elim

/-- inside `p` an address is either in `o` or in one of the siblings -/
theorem sib_cover {p o x : List Bool} (hpo : p <+: o) (hp : p <+: x) (hlen : o.length ≤ x.length) :
    o <+: x ∨ ∃ w', Sib p o w' ∧ w' <+: x := by
  rcases path_cases o x with h | h | ⟨w, h1, h2⟩ | ⟨w, h1, h2⟩
  · exact .inl h
  · have := h.length_le
    have := h.eq_of_length (by omega)
    subst this
    exact .inl (List.prefix_refl _)
  · exact .inr ⟨_, ⟨w, false, prefix_of_diverge hpo hp h1 h2, h1, rfl⟩, h2⟩
  · exact .inr ⟨_, ⟨w, true, prefix_of_diverge hpo hp h1 h2, h1, rfl⟩, h2⟩

theorem sib_sound {p o w' x : List Bool} (h : Sib p o w') (hx : w' <+: x) : p <+: x ∧ ¬ o <+: x := by
  obtain ⟨w, b, h1, h2, rfl⟩ := h
  exact ⟨h1.trans ((List.prefix_append _ _).trans hx), fun ho => not_prefix_flip (h2.trans ho) hx⟩

theorem sib_disjoint {p o w1 w2 x : List Bool} (h1 : Sib p o w1) (h2 : Sib p o w2)
    (hx1 : w1 <+: x) (hx2 : w2 <+: x) : w1 = w2 := by
  obtain ⟨u, b, a1, a2, rfl⟩ := h1
  obtain ⟨v, c, c1, c2, rfl⟩ := h2
  have key : ∀ {u v : List Bool} {b c : Bool}, u ++ [b] <+: o → v ++ [c] <+: o → u ++ [!b] <+: x →
      v ++ [!c] <+: x → u <+: v → u = v := by
    intro u v b c hu hv hux hvx huv
    obtain ⟨t, rfl⟩ := huv
    cases t with
    | nil => simp
    | cons d t =>
      exfalso
      have e1 : u ++ [d] <+: o := by
        refine List.IsPrefix.trans ?_ hv
        exact ⟨t ++ [c], by simp⟩
      have e2 : u ++ [d] <+: x := by
        refine List.IsPrefix.trans ?_ hvx
        exact ⟨t ++ [!c], by simp⟩
      have e3 := prefix_concat_inj hu e1
      subst e3
      exact not_prefix_flip e2 hux
  have huv : u = v := by
    rcases prefix_or_prefix ((List.prefix_append _ _).trans a2) ((List.prefix_append _ _).trans c2) with h | h
    · exact key a2 c2 hx1 hx2 h
    · exact (key c2 a2 hx2 hx1 h).symm
  subst huv
  rw [prefix_concat_inj a2 c2]

/-- no block between `p` (included) and `o` (excluded) is unsplittable -/
def Splittable (p o : List Bool) : Prop := ∀ w, p <+: w → w <+: o → w ≠ o → ¬ unsplittable w

theorem Splittable.mono {p q o : List Bool} (h : Splittable p o) (hpq : p <+: q) : Splittable q o :=
  fun w h1 h2 h3 => h w (hpq.trans h1) h2 h3

theorem Piece.trans {src m x : Network} {w w' : List Bool} (h : Piece src w m) (hx : Piece m w' x) :
    Piece src w' x := by
  refine ⟨hx.block, hx.path_eq, hx.cc0.trans h.cc0, ?_, hx.asn.trans h.asn, hx.flags.trans h.flags⟩
  rw [hx.cc1, h.cc0, h.cc1]
  split <;> rfl

theorem strict_concat {p o : List Bool} (h : p <+: o) (hne : p ≠ o) : ∃ b, p ++ [b] <+: o := by
  obtain ⟨t, rfl⟩ := h
  cases t with
  | nil => simp at hne
  | cons b t => exact ⟨b, t, by simp⟩

/-- what the pushed list looks like: the old elements plus pieces of `n` for the siblings -/
structure Excluded (n : Network) (po : List Bool) (list list' : NetList) : Prop where
  asc : Ascending list'
  old : ∀ x ∈ list, x ∈ list'
  new : ∀ x ∈ list', x ∈ list ∨ ∃ w', Sib (path n) po w' ∧ Piece n w' x
  all : ∀ w', Sib (path n) po w' → ∃ y ∈ list', path y = w'

theorem push_piece {list : NetList} {x : Network} (ha : Ascending list) (hbl : ∀ y ∈ list, Block y) (hx : Block x) :
    ∃ list', listPush list x = .ok list' ∧ Ascending list' ∧ (∀ y ∈ list, y ∈ list') ∧
      (∀ y ∈ list', y ∈ list ∨ y = x) ∧ (∃ y ∈ list', path y = path x) := by
  obtain ⟨l', h1, h2, h3⟩ := listPush_mem list x ha
  refine ⟨l', h1, h2, fun y hy => (h3 y).mpr (.inl hy), ?_, ?_⟩
  · intro y hy
    rcases (h3 y).mp hy with h | ⟨h, -⟩
    · exact .inl h
    · exact .inr h
  · by_cases he : ∃ e ∈ list, SameBlock x e
    · obtain ⟨e, he, hs⟩ := he
      exact ⟨e, (h3 e).mpr (.inl he), ((sameBlock_iff_path hx (hbl e he)).mp hs).symm⟩
    · exact ⟨x, (h3 x).mpr (.inr ⟨rfl, he⟩), rfl⟩

/-- `Sib` below one step -/
theorem sib_step {p o w' : List Bool} {b : Bool} (hb : p ++ [b] <+: o) :
    Sib p o w' ↔ w' = p ++ [!b] ∨ Sib (p ++ [b]) o w' := by
  constructor
  · rintro ⟨w, c, h1, h2, rfl⟩
    by_cases hpw : p = w
    · subst hpw
      left
      rw [prefix_concat_inj h2 hb]
    · right
      obtain ⟨d, hd⟩ := strict_concat h1 hpw
      have := prefix_concat_inj (hd.trans ((List.prefix_append _ _).trans h2)) hb
      subst this
      exact ⟨w, c, hd, h2, rfl⟩
  · rintro (rfl | ⟨w, c, h1, h2, rfl⟩)
    · exact ⟨p, b, List.prefix_refl _, hb, rfl⟩
    · exact ⟨w, c, (List.prefix_append _ _).trans h1, h2, rfl⟩

theorem sib_end {o w' : List Bool} : ¬ Sib o o w' := by
  rintro ⟨w, c, h1, h2, -⟩
  have := h1.length_le
  have := h2.length_le
  simp at this
  omega

theorem netCmp_eq_path {m n : Network} (hm : Block m) (hn : Block n) :
    netCmp m n = 0 ↔ path m = path n := by
  rw [netCmp_zero, sameBlock_iff_path hm hn]

theorem Excluded.step {n s s' : Network} {po : List Bool} {b : Bool} {list list1 list2 : NetList}
    (hb : path n ++ [b] <+: po)
    (hs : Piece n (path n ++ [b]) s) (hs' : Piece n (path n ++ [!b]) s')
    (h1 : ∀ y ∈ list, y ∈ list1) (h2 : ∀ y ∈ list1, y ∈ list ∨ y = s')
    (h3 : ∃ y ∈ list1, path y = path s')
    (he : Excluded s po list1 list2) : Excluded n po list list2 := by
  refine ⟨he.asc, fun x hx => he.old x (h1 x hx), ?_, ?_⟩
  · intro x hx
    rcases he.new x hx with hx | ⟨w', hw, hp⟩
    · rcases h2 x hx with hx | rfl
      · exact .inl hx
      · exact .inr ⟨_, ⟨path n, b, List.prefix_refl _, hb, rfl⟩, hs'⟩
    · refine .inr ⟨w', ?_, hs.trans hp⟩
      rw [hs.path_eq] at hw
      exact (sib_step hb).mpr (.inr hw)
  · intro w' hw
    rcases (sib_step hb).mp hw with rfl | hw
    · obtain ⟨y, hy, hp⟩ := h3
      exact ⟨y, he.old y hy, hp.trans hs'.path_eq⟩
    · rw [← hs.path_eq] at hw
      exact he.all w' hw

/-- reaching `other` itself: only the sibling was pushed -/
theorem excluded_last {n s s' : Network} {po : List Bool} {b : Bool} {list list1 : NetList}
    (hpo : path n ++ [b] = po)
    (hs : Piece n (path n ++ [b]) s) (hs' : Piece n (path n ++ [!b]) s')
    (ha : Ascending list1)
    (h1 : ∀ y ∈ list, y ∈ list1) (h2 : ∀ y ∈ list1, y ∈ list ∨ y = s')
    (h3 : ∃ y ∈ list1, path y = path s') : Excluded n po list list1 := by
  subst hpo
  refine Excluded.step (List.prefix_refl _) hs hs' h1 h2 h3 ⟨ha, fun x hx => hx, fun x hx => .inl hx, ?_⟩
  intro w' hw
  rw [hs.path_eq] at hw
  exact absurd hw sib_end

theorem excludeRec_spec (o : Network) (ho : Block o) :
    ∀ fuel (n : Network) (list : NetList), Block n → CountryOk n → path n <+: path o → path n ≠ path o →
      Splittable (path n) (path o) → (path o).length ≤ (path n).length + fuel →
      Ascending list → (∀ y ∈ list, Block y) →
      ∃ list', excludeRec n o list fuel = (list', .ok ()) ∧ Excluded n (path o) list list' := by
  intro fuel
  induction fuel with
  | zero =>
    intro n list hb hc hp hne _ hl
    exact absurd (hp.eq_of_length (by have := hp.length_le; omega)) hne
  | succ fuel ih =>
    intro n list hb hc hp hne hsp hl ha hbl
    have hlp := length_path hb.le
    have hlo := length_path ho.le
    have hlt : (path n).length < (path o).length := by
      rcases Nat.lt_or_ge (path n).length (path o).length with h | h
      · exact h
      · exact absurd (hp.eq_of_length (by have := hp.length_le; omega)) hne
    have hole := ho.le
    obtain ⟨s1, s2, hsub, hp1, hp2⟩ :=
      subnets_ok n hb hc (by omega) (hsp _ (List.prefix_refl _) hp hne)
    obtain ⟨b, hbp⟩ := strict_concat hp hne
    unfold excludeRec
    rw [hsub]
    simp only
    have c1 := netCmp_eq_path ho hp1.block
    have c2 := netCmp_eq_path ho hp2.block
    have i1 := isSubnet_iff_path hp1.block ho
    have i2 := isSubnet_iff_path hp2.block ho
    rw [hp1.path_eq] at c1 i1
    rw [hp2.path_eq] at c2 i2
    obtain ⟨l1, p11, p12, p13, p14, p15⟩ := push_piece ha hbl hp1.block
    obtain ⟨l2, p21, p22, p23, p24, p25⟩ := push_piece ha hbl hp2.block
    have nf : path n ++ [true] <+: path o → ¬ path n ++ [false] <+: path o := by
      intro h1 h2; have := prefix_concat_inj h1 h2; cases this
    by_cases e1 : netCmp o s1 = 0
    · rw [if_pos e1, p21]
      exact ⟨l2, rfl, excluded_last (c1.mp e1).symm hp1 hp2 p22 p23 p24 p25⟩
    rw [if_neg e1]
    by_cases e2 : netCmp o s2 = 0
    · rw [if_pos e2, p11]
      exact ⟨l1, rfl, excluded_last (c2.mp e2).symm hp2 hp1 p12 p13 p14 p15⟩
    rw [if_neg e2]
    cases b
    · rw [if_pos (i1.mpr hbp), p21]
      simp only
      have hbl2 : ∀ y ∈ l2, Block y := fun y hy => (p24 y hy).elim (hbl y) (fun h => h ▸ hp2.block)
      obtain ⟨l', r1, r2⟩ := ih s1 l2 hp1.block (hp1.countryOk hc) (by rw [hp1.path_eq]; exact hbp)
        (by rw [hp1.path_eq]; exact fun h => e1 (c1.mpr h.symm))
        (by rw [hp1.path_eq]; exact hsp.mono (List.prefix_append _ _))
        (by rw [hp1.path_eq]; simp; omega) p22 hbl2
      exact ⟨l', r1, Excluded.step hbp hp1 hp2 p23 p24 p25 r2⟩
    · rw [if_neg (by rw [i1]; exact nf hbp), if_pos (i2.mpr hbp), p11]
      simp only
      have hbl1 : ∀ y ∈ l1, Block y := fun y hy => (p14 y hy).elim (hbl y) (fun h => h ▸ hp1.block)
      obtain ⟨l', r1, r2⟩ := ih s2 l1 hp2.block (hp2.countryOk hc) (by rw [hp2.path_eq]; exact hbp)
        (by rw [hp2.path_eq]; exact fun h => e2 (c2.mpr h.symm))
        (by rw [hp2.path_eq]; exact hsp.mono (List.prefix_append _ _))
        (by rw [hp2.path_eq]; simp; omega) p12 hbl1
      exact ⟨l', r1, Excluded.step hbp hp2 hp1 p13 p14 p15 r2⟩

theorem unsplittable_len {w : List Bool} (h : unsplittable w) : w.length = 79 ∨ w.length = 95 := by
  rcases h with rfl | rfl
  · left; rfl
  · right; rfl

/-- If some block on the way cannot be split, the code reports an error. -/
theorem excludeRec_stuck (o : Network) (ho : Block o) :
    ∀ fuel (n : Network) (list : NetList), Block n → CountryOk n →
      (∃ w, path n <+: w ∧ w <+: path o ∧ w ≠ path o ∧ unsplittable w) →
      (path o).length ≤ (path n).length + fuel →
      Ascending list → (∀ y ∈ list, Block y) →
      (excludeRec n o list fuel).2 = .error (.err EINVAL) := by
  intro fuel
  induction fuel with
  | zero =>
    intro n list hb hc ⟨w, h1, h2, h3, h4⟩ hl
    have l1 := h1.length_le
    have l2 := h2.length_le
    exact absurd (h2.eq_of_length (by omega)) h3
  | succ fuel ih =>
    intro n list hb hc ⟨w, h1, h2, h3, h4⟩ hl ha hbl
    have hlp := length_path hb.le
    have hlo := length_path ho.le
    have hole := ho.le
    by_cases hun : unsplittable (path n)
    · unfold excludeRec
      rw [subnets_unsplittable n hb hun]
    · have hpw : path n ≠ w := fun e => hun (e ▸ h4)
      have l1 := h1.length_le
      have l2 := h2.length_le
      have l3 : (path n).length ≠ w.length := fun e => hpw (h1.eq_of_length e)
      have l4 : w.length ≠ (path o).length := fun e => h3 (h2.eq_of_length e)
      obtain ⟨s1, s2, hsub, hp1, hp2⟩ := subnets_ok n hb hc (by omega) hun
      obtain ⟨b, hbw⟩ := strict_concat h1 hpw
      have hbp := hbw.trans h2
      unfold excludeRec
      rw [hsub]
      simp only
      have c1 := netCmp_eq_path ho hp1.block
      have c2 := netCmp_eq_path ho hp2.block
      have i1 := isSubnet_iff_path hp1.block ho
      have i2 := isSubnet_iff_path hp2.block ho
      rw [hp1.path_eq] at c1 i1
      rw [hp2.path_eq] at c2 i2
      obtain ⟨l1, p11, p12, p13, p14, p15⟩ := push_piece ha hbl hp1.block
      obtain ⟨l2, p21, p22, p23, p24, p25⟩ := push_piece ha hbl hp2.block
      have nf : path n ++ [true] <+: path o → ¬ path n ++ [false] <+: path o := by
        intro h1 h2; have := prefix_concat_inj h1 h2; cases this
      have e1 : ¬ netCmp o s1 = 0 := by
        rw [c1]; intro e; have := congrArg List.length e; simp at this; omega
      have e2 : ¬ netCmp o s2 = 0 := by
        rw [c2]; intro e; have := congrArg List.length e; simp at this; omega
      rw [if_neg e1, if_neg e2]
      cases b
      · rw [if_pos (i1.mpr hbp), p21]
        simp only
        have hbl2 : ∀ y ∈ l2, Block y := fun y hy => (p24 y hy).elim (hbl y) (fun h => h ▸ hp2.block)
        exact ih s1 l2 hp1.block (hp1.countryOk hc) ⟨w, by rw [hp1.path_eq]; exact hbw, h2, h3, h4⟩
          (by rw [hp1.path_eq]; simp; omega) p22 hbl2
      · rw [if_neg (by rw [i1]; exact nf hbp), if_pos (i2.mpr hbp), p11]
        simp only
        have hbl1 : ∀ y ∈ l1, Block y := fun y hy => (p14 y hy).elim (hbl y) (fun h => h ▸ hp1.block)
        exact ih s2 l1 hp2.block (hp2.countryOk hc) ⟨w, by rw [hp2.path_eq]; exact hbw, h2, h3, h4⟩
          (by rw [hp2.path_eq]; simp; omega) p12 hbl1

theorem excludeToList_none {n o : Network} (hb : Block n) (ho : Block o) (list : NetList)
    (h : ¬ (path n <+: path o ∧ path n ≠ path o)) : excludeToList n o list = (list, .ok ()) := by
  unfold excludeToList
  have i := isSubnet_iff_path hb ho
  have c := netCmp_eq_path hb ho
  cases hs : isSubnet n o
  · rfl
  · rw [if_neg (by simp)]
    have : netCmp n o = 0 := by
      rw [c]
      by_cases e : path n = path o
      · exact e
      · exact absurd ⟨i.mp hs, e⟩ h
    rw [if_pos this]

theorem excludeToList_strict {n o : Network} (hb : Block n) (ho : Block o) (list : NetList)
    (hp : path n <+: path o) (hne : path n ≠ path o) :
    excludeToList n o list = excludeRec n o list excludeFuel := by
  unfold excludeToList
  rw [if_neg (by rw [(isSubnet_iff_path hb ho).mpr hp]; simp), if_neg (by rw [netCmp_eq_path hb ho]; exact hne)]

theorem excludeFuel_ok {n o : Network} (ho : Block o) :
    (path o).length ≤ (path n).length + excludeFuel := by
  rw [length_path ho.le]
  have := ho.le
  unfold excludeFuel
  omega

theorem excludeToList_spec {n o : Network} (hb : Block n) (hc : CountryOk n) (ho : Block o) (list : NetList)
    (hp : path n <+: path o) (hne : path n ≠ path o) (hsp : Splittable (path n) (path o))
    (ha : Ascending list) (hbl : ∀ y ∈ list, Block y) :
    ∃ list', excludeToList n o list = (list', .ok ()) ∧ Excluded n (path o) list list' := by
  rw [excludeToList_strict hb ho list hp hne]
  exact excludeRec_spec o ho _ n list hb hc hp hne hsp (excludeFuel_ok ho) ha hbl

end Loc
