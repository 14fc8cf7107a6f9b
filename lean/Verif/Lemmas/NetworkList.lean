import Verif.Lemmas.Merge
import Verif.Model.NetworkList
/-
Helper lemmas: the binary search of the network list and the operations built on it.
-/
namespace Loc
open Spec

/-- what the search reports on an ascending list -/
def FindOk (l : NetList) (n : Network) (i : Int) (found : Bool) : Prop :=
  ∃ k : Nat, i = k ∧
    (found = true → ∃ e, l[k]? = some e ∧ SameBlock n e) ∧
    (found = false → k ≤ l.length ∧ (∀ j e, j < k → l[j]? = some e → Before e n) ∧
      (∀ j e, k ≤ j → l[j]? = some e → Before n e))

theorem asc_get {l : NetList} (h : Ascending l) {i j : Nat} {a b : Network} (hij : i < j)
    (ha : l[i]? = some a) (hb : l[j]? = some b) : Before a b := by
  obtain ⟨hi, rfl⟩ := List.getElem?_eq_some_iff.mp ha
  obtain ⟨hj, rfl⟩ := List.getElem?_eq_some_iff.mp hb
  exact List.pairwise_iff_getElem.mp h i j hi hj hij

theorem findLoop_spec (l : NetList) (n : Network) (h : Ascending l) :
    ∀ (fuel : Nat) (lo hi i : Int), 0 ≤ lo → hi < l.length → lo ≤ hi + 1 → (lo ≤ hi ∨ i = lo) →
      hi - lo + 1 < fuel →
      (∀ (j : Nat) e, (j : Int) < lo → l[j]? = some e → Before e n) →
      (∀ (j : Nat) e, hi < (j : Int) → l[j]? = some e → Before n e) →
      ∃ r found, findLoop l n lo hi i fuel = .ok (r, found) ∧ FindOk l n r found := by
  intro fuel
  induction fuel with
  | zero => intro lo hi i _ _ _ _ hf; omega
  | succ fuel ih =>
    intro lo hi i h1 h2 h3 h4 h5 h6 h7
    unfold findLoop
    by_cases hlh : lo ≤ hi
    · rw [if_pos hlh]
      simp only
      have hm0 : 0 ≤ (lo + hi) / 2 := by omega
      have hm1 : lo ≤ (lo + hi) / 2 := by omega
      have hm2 : (lo + hi) / 2 ≤ hi := by omega
      generalize (lo + hi) / 2 = mid at *
      rw [if_neg (by omega)]
      have hlt : mid.toNat < l.length := by omega
      have hget : l[mid.toNat]? = some l[mid.toNat] := List.getElem?_eq_getElem hlt
      rw [hget]
      simp only
      generalize l[mid.toNat] = e at hget
      rcases netCmp_spec n e with ⟨hc, hb⟩ | ⟨hc, hb⟩ | ⟨hc, hb⟩
      · rw [if_neg (by omega), if_pos (by omega)]
        apply ih
        · omega
        · exact h2
        · omega
        · right; trivial
        · omega
        · intro j e' hj he'
          by_cases hj' : j = mid.toNat
          · subst hj'; rw [hget] at he'; cases he'; exact hb
          · exact before_trans (asc_get h (by omega) he' hget) hb
        · exact h7
      · rw [if_neg (by omega), if_neg (by omega)]
        apply ih
        · exact h1
        · omega
        · omega
        · by_cases hq : lo ≤ mid - 1
          · left; exact hq
          · right; omega
        · omega
        · exact h6
        · intro j e' hj he'
          by_cases hj' : j = mid.toNat
          · subst hj'; rw [hget] at he'; cases he'; exact hb
          · exact before_trans hb (asc_get h (by omega) hget he')
      · rw [if_pos hc]
        refine ⟨_, _, rfl, mid.toNat, by omega, ?_, by simp⟩
        intro _
        exact ⟨e, hget, hb⟩
    · rw [if_neg hlh]
      have hi' : i = lo := by omega
      refine ⟨_, _, rfl, lo.toNat, by omega, by simp, ?_⟩
      intro _
      refine ⟨by omega, ?_, ?_⟩
      · intro j e hj he; exact h6 j e (by omega) he
      · intro j e hj he; exact h7 j e (by omega) he

theorem listFind_spec (l : NetList) (n : Network) (h : Ascending l) :
    ∃ r found, listFind l n = .ok (r, found) ∧ FindOk l n r found := by
  unfold listFind
  by_cases h0 : l.length = 0
  · rw [if_pos h0]
    have := List.length_eq_zero_iff.mp h0
    subst this
    exact ⟨_, _, rfl, 0, rfl, by simp, by simp⟩
  · rw [if_neg h0]
    simp only
    have hhi : ((l.length : Int) - 1).toNat < l.length := by omega
    have hget : l[((l.length : Int) - 1).toNat]? = some l[((l.length : Int) - 1).toNat] :=
      List.getElem?_eq_getElem hhi
    rw [hget]
    simp only
    generalize l[((l.length : Int) - 1).toNat] = e at hget
    rcases netCmp_spec n e with ⟨hc, hb⟩ | ⟨hc, hb⟩ | ⟨hc, hb⟩
    · rw [if_neg (by omega), if_pos (by omega)]
      refine ⟨_, _, rfl, l.length, by omega, by simp, fun _ => ⟨by omega, ?_, ?_⟩⟩
      · intro j e' hj he'
        by_cases hj' : j = ((l.length : Int) - 1).toNat
        · subst hj'; rw [hget] at he'; cases he'; exact hb
        · exact before_trans (asc_get h (by omega) he' hget) hb
      · intro j e' hj he'
        rw [List.getElem?_eq_none hj] at he'; cases he'
    · rw [if_neg (by omega), if_neg (by omega)]
      apply findLoop_spec l n h
      · omega
      · omega
      · omega
      · left; omega
      · omega
      · intro j e hj; omega
      · intro j e' hj he'
        rw [List.getElem?_eq_none (by omega)] at he'; cases he'
    · rw [if_pos hc]
      exact ⟨_, _, rfl, _, by omega, fun _ => ⟨e, hget, hb⟩, by simp⟩

theorem sameBlock_refl (n : Network) : SameBlock n n := ⟨rfl, rfl⟩
theorem sameBlock_symm {m n : Network} (h : SameBlock m n) : SameBlock n m := ⟨h.1.symm, h.2.symm⟩
theorem sameBlock_trans {k m n : Network} (h : SameBlock k m) (h' : SameBlock m n) : SameBlock k n :=
  ⟨h.1.trans h'.1, h.2.trans h'.2⟩

theorem before_of_same_left {k m n : Network} (h : SameBlock k m) (hb : Before m n) : Before k n := by
  unfold SameBlock Before at *; omega

theorem before_of_same_right {k m n : Network} (h : SameBlock m n) (hb : Before k m) : Before k n := by
  unfold SameBlock Before at *; omega

/-- insertion position is unique: the search result in terms of a split of the list -/
theorem findOk_split {l : NetList} {n : Network} {i : Int} (hf : FindOk l n i false) :
    0 ≤ i ∧ i ≤ l.length ∧ (∀ e ∈ l.take i.toNat, Before e n) ∧ (∀ e ∈ l.drop i.toNat, Before n e) := by
  obtain ⟨k, rfl, -, h2⟩ := hf
  obtain ⟨h3, h4, h5⟩ := h2 rfl
  refine ⟨by omega, by omega, ?_, ?_⟩
  · intro e he
    rw [Int.toNat_natCast, List.mem_iff_getElem?] at he
    obtain ⟨j, hj⟩ := he
    rw [List.getElem?_take] at hj
    split at hj
    · exact h4 j e (by assumption) hj
    · cases hj
  · intro e he
    rw [Int.toNat_natCast, List.mem_iff_getElem?] at he
    obtain ⟨j, hj⟩ := he
    rw [List.getElem?_drop] at hj
    exact h5 _ e (by omega) hj

theorem findOk_found {l : NetList} {n : Network} (h : Ascending l) {i : Int} {found : Bool}
    (hf : FindOk l n i found) : found = true ↔ ∃ e ∈ l, SameBlock n e := by
  cases found
  · constructor
    · simp
    · rintro ⟨e, he, hs⟩
      obtain ⟨-, -, h1, h2⟩ := findOk_split hf
      rw [← List.take_append_drop i.toNat l, List.mem_append] at he
      rcases he with he | he
      · exact absurd (sameBlock_symm hs) (before_not_same (h1 e he))
      · exact absurd hs (before_not_same (h2 e he))
  · obtain ⟨k, -, h1, -⟩ := hf
    obtain ⟨e, he, hs⟩ := h1 rfl
    constructor
    · intro _; exact ⟨e, List.mem_of_getElem? he, hs⟩
    · simp

/-- `loc_network_list_push` on an ascending list -/
theorem listPush_spec (l : NetList) (n : Network) (h : Ascending l) :
    ((∃ e ∈ l, SameBlock n e) ∧ listPush l n = .ok l) ∨
    ((¬ ∃ e ∈ l, SameBlock n e) ∧ ∃ l1 l2, l = l1 ++ l2 ∧ listPush l n = .ok (l1 ++ n :: l2) ∧
      (∀ e ∈ l1, Before e n) ∧ (∀ e ∈ l2, Before n e) ∧ Ascending (l1 ++ n :: l2)) := by
  obtain ⟨i, found, hr, hf⟩ := listFind_spec l n h
  have hfo := findOk_found h hf
  cases found
  · right
    obtain ⟨h0, hl, h1, h2⟩ := findOk_split hf
    refine ⟨by simpa using hfo, l.take i.toNat, l.drop i.toNat, (List.take_append_drop _ _).symm, ?_, h1, h2, ?_⟩
    · unfold listPush
      simp only [hr, bind, Except.bind, Bool.false_eq_true, if_false]
      rw [if_neg (by omega)]
      rfl
    · have := h
      unfold Ascending at *
      rw [← List.take_append_drop i.toNat l, List.pairwise_append] at this
      rw [List.pairwise_append]
      refine ⟨this.1, ?_, ?_⟩
      · rw [List.pairwise_cons]
        exact ⟨h2, this.2.1⟩
      · intro a ha b hb
        rw [List.mem_cons] at hb
        rcases hb with rfl | hb
        · exact h1 a ha
        · exact this.2.2 a ha b hb
  · left
    refine ⟨hfo.mp rfl, ?_⟩
    unfold listPush
    simp only [hr, bind, Except.bind, if_true]
    rfl

/-- membership view of a push -/
theorem listPush_mem (l : NetList) (n : Network) (h : Ascending l) :
    ∃ l', listPush l n = .ok l' ∧ Ascending l' ∧
      (∀ x, x ∈ l' ↔ x ∈ l ∨ (x = n ∧ ¬ ∃ e ∈ l, SameBlock n e)) := by
  rcases listPush_spec l n h with ⟨h1, h2⟩ | ⟨h1, l1, l2, rfl, h2, -, -, h3⟩
  · exact ⟨l, h2, h, fun x => ⟨.inl, fun hx => hx.elim id fun hx => absurd h1 hx.2⟩⟩
  · refine ⟨_, h2, h3, fun x => ?_⟩
    simp only [List.mem_append, List.mem_cons] at *
    constructor
    · rintro (hx | rfl | hx)
      · exact .inl (.inl hx)
      · exact .inr ⟨rfl, h1⟩
      · exact .inl (.inr hx)
    · rintro ((hx | hx) | ⟨rfl, -⟩)
      · exact .inl hx
      · exact .inr (.inr hx)
      · exact .inr (.inl rfl)

theorem listContains_spec (l : NetList) (n : Network) (h : Ascending l) :
    ∃ b, listContains l n = .ok b ∧ (b = true ↔ ∃ e ∈ l, SameBlock n e) := by
  obtain ⟨i, found, hr, hf⟩ := listFind_spec l n h
  refine ⟨found, ?_, findOk_found h hf⟩
  unfold listContains
  simp only [hr, bind, Except.bind]
  rfl

theorem asc_unique {l : NetList} (h : Ascending l) {a b : Network} (ha : a ∈ l) (hb : b ∈ l)
    (hs : SameBlock a b) : a = b := by
  obtain ⟨i, hi, rfl⟩ := List.getElem_of_mem ha
  obtain ⟨j, hj, rfl⟩ := List.getElem_of_mem hb
  rcases Nat.lt_trichotomy i j with hij | hij | hij
  · exact absurd hs (before_not_same (List.pairwise_iff_getElem.mp h i j hi hj hij))
  · subst hij; rfl
  · exact absurd (sameBlock_symm hs) (before_not_same (List.pairwise_iff_getElem.mp h j i hj hi hij))

theorem asc_nodup {l : NetList} (h : Ascending l) : l.Nodup := by
  unfold Ascending at h
  unfold List.Nodup
  refine h.imp ?_
  rintro a b hab rfl
  exact before_irrefl a hab

/-- `loc_network_list_remove` on an ascending list removes exactly the element with that block -/
theorem listRemove_spec (l : NetList) (n : Network) (h : Ascending l) :
    ∃ l', listRemove l n = .ok l' ∧ Ascending l' ∧ l'.Sublist l ∧
      (∀ x, x ∈ l' ↔ x ∈ l ∧ ¬ SameBlock n x) := by
  obtain ⟨i, found, hr, hf⟩ := listFind_spec l n h
  have hfo := findOk_found h hf
  cases found
  · refine ⟨l, ?_, h, List.Sublist.refl l, ?_⟩
    · unfold listRemove
      simp only [hr, bind, Except.bind, Bool.not_false, if_true]
      rfl
    · intro x
      constructor
      · intro hx
        exact ⟨hx, fun hs => by have := hfo.mpr ⟨x, hx, hs⟩; cases this⟩
      · exact fun hx => hx.1
  · obtain ⟨k, rfl, h1, -⟩ := hf
    obtain ⟨e, he, hs⟩ := h1 rfl
    obtain ⟨hk, hke⟩ := List.getElem?_eq_some_iff.mp he
    have hsplit : l = l.take k ++ e :: l.drop (k + 1) := by
      rw [← hke, List.getElem_cons_drop, List.take_append_drop]
    have hsub : (l.take k ++ l.drop (k + 1)).Sublist l := by
      conv => rhs; rw [hsplit]
      exact List.Sublist.append (List.Sublist.refl _) (List.sublist_cons_self _ _)
    refine ⟨l.take k ++ l.drop (k + 1), ?_, List.Pairwise.sublist hsub h, hsub, ?_⟩
    · unfold listRemove
      simp only [hr, bind, Except.bind, Bool.not_true, Bool.false_eq_true, if_false, Int.toNat_natCast]
      rw [if_neg (by omega)]
      rfl
    · intro x
      constructor
      · intro hx
        refine ⟨hsub.subset hx, ?_⟩
        intro hsx
        have hex : e = x := asc_unique h (List.mem_of_getElem? he) (hsub.subset hx)
          (sameBlock_trans (sameBlock_symm hs) hsx)
        have hnd := asc_nodup h
        rw [hsplit, List.nodup_append] at hnd
        rw [List.mem_append] at hx
        rcases hx with hx | hx
        · exact hnd.2.2 x hx e (by simp) hex.symm
        · have := (List.nodup_cons.mp hnd.2.1).1
          rw [hex] at this
          exact this hx
      · rintro ⟨hx, hns⟩
        rw [hsplit, List.mem_append, List.mem_cons] at hx
        rw [List.mem_append]
        rcases hx with hx | rfl | hx
        · exact .inl hx
        · exact absurd hs hns
        · exact .inr hx

theorem listMerge_spec (other : NetList) :
    ∀ l : NetList, Ascending l → ∃ l', listMerge l other = .ok l' ∧ Ascending l' ∧
      (∀ x ∈ l, x ∈ l') ∧ (∀ x ∈ l', x ∈ l ∨ x ∈ other) ∧
      (∀ x ∈ other, ∃ y ∈ l', SameBlock x y) := by
  induction other with
  | nil => intro l h; exact ⟨l, rfl, h, fun x hx => hx, fun x hx => .inl hx, by simp⟩
  | cons n other ih =>
    intro l h
    obtain ⟨l1, h1, h2, h3⟩ := listPush_mem l n h
    obtain ⟨l2, g1, g2, g3, g4, g5⟩ := ih l1 h2
    refine ⟨l2, ?_, g2, ?_, ?_, ?_⟩
    · unfold listMerge
      simp only [h1, bind, Except.bind, g1]
    · intro x hx; exact g3 x ((h3 x).mpr (.inl hx))
    · intro x hx
      rcases g4 x hx with hx | hx
      · rcases (h3 x).mp hx with hx | ⟨rfl, -⟩
        · exact .inl hx
        · exact .inr (List.mem_cons_self ..)
      · exact .inr (List.mem_cons_of_mem _ hx)
    · intro x hx
      rw [List.mem_cons] at hx
      rcases hx with rfl | hx
      · by_cases he : ∃ e ∈ l, SameBlock x e
        · obtain ⟨e, he, hs⟩ := he
          exact ⟨e, g3 e ((h3 e).mpr (.inl he)), hs⟩
        · exact ⟨x, g3 x ((h3 x).mpr (.inr ⟨rfl, he⟩)), sameBlock_refl x⟩
      · exact g5 x hx

/-- merging another ascending list: first come, first served -/
theorem listMerge_mem (other : NetList) :
    ∀ l : NetList, Ascending l → Ascending other → ∃ l', listMerge l other = .ok l' ∧ Ascending l' ∧
      (∀ x, x ∈ l' ↔ x ∈ l ∨ (x ∈ other ∧ ¬ ∃ e ∈ l, SameBlock x e)) := by
  induction other with
  | nil => intro l h _; exact ⟨l, rfl, h, by simp⟩
  | cons n other ih =>
    intro l h ho
    obtain ⟨l1, h1, h2, h3⟩ := listPush_mem l n h
    have hoc := List.pairwise_cons.mp ho
    obtain ⟨l2, g1, g2, g3⟩ := ih l1 h2 hoc.2
    refine ⟨l2, ?_, g2, ?_⟩
    · unfold listMerge
      simp only [h1, bind, Except.bind, g1]
    · intro x
      rw [g3, h3]
      constructor
      · rintro ((hx | ⟨rfl, hx⟩) | ⟨hx, hn⟩)
        · exact .inl hx
        · exact .inr ⟨List.mem_cons_self .., hx⟩
        · refine .inr ⟨List.mem_cons_of_mem _ hx, ?_⟩
          rintro ⟨e, he, hs⟩
          exact hn ⟨e, (h3 e).mpr (.inl he), hs⟩
      · rintro (hx | ⟨hx, hn⟩)
        · exact .inl (.inl hx)
        · rw [List.mem_cons] at hx
          rcases hx with rfl | hx
          · exact .inl (.inr ⟨rfl, hn⟩)
          · refine .inr ⟨hx, ?_⟩
            rintro ⟨e, he, hs⟩
            rcases (h3 e).mp he with he | ⟨rfl, -⟩
            · exact hn ⟨e, he, hs⟩
            · exact before_not_same (hoc.1 x hx) (sameBlock_symm hs)

end Loc
