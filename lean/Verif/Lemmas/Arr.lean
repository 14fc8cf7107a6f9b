import Verif.Model.Arr
/-
The arrays hold the lists of the list model.
-/
namespace Loc

/-- The first cells of the array hold the elements of the list. -/
def Arr.Is {α : Type} (a : Arr α) (l : List α) : Prop := a.size = l.length ∧ ∃ rest, a.cells = l.map some ++ rest

theorem Arr.Is.get {α : Type} {a : Arr α} {l : List α} (h : a.Is l) {i : Nat} (hi : i < l.length) : a.cells[i]? = some (some l[i]) := by
  obtain ⟨-, rest, h⟩ := h
  rw [h, List.getElem?_append_left (by rw [List.length_map]; exact hi), List.getElem?_map, List.getElem?_eq_getElem hi]
  rfl

theorem Arr.Is.le {α : Type} {a : Arr α} {l : List α} (h : a.Is l) : l.length ≤ a.cells.length := by
  obtain ⟨-, rest, h⟩ := h
  rw [h, List.length_append, List.length_map]
  omega

theorem Arr.is_of_get {α : Type} {a : Arr α} {l : List α} (hs : a.size = l.length) (h : ∀ (i : Nat) (hi : i < l.length), a.cells[i]? = some (some l[i])) : a.Is l := by
  refine ⟨hs, a.cells.drop l.length, ?_⟩
  apply List.ext_getElem?
  intro i
  by_cases hi : i < l.length
  · rw [h i hi, List.getElem?_append_left (by rw [List.length_map]; exact hi), List.getElem?_map, List.getElem?_eq_getElem hi]
    rfl
  · rw [List.getElem?_append_right (by rw [List.length_map]; omega), List.length_map, List.getElem?_drop]
    congr 1
    omega

theorem arrRead_is {α : Type} {a : Arr α} {l : List α} (h : a.Is l) {i : Nat} (hi : i < l.length) : arrRead a i = .ok l[i] := by
  unfold arrRead
  rw [h.get hi]

theorem arrRead_get {α : Type} {a : Arr α} {i : Nat} {x : α} (h : a.cells[i]? = some (some x)) : arrRead a i = .ok x := by
  unfold arrRead
  rw [h]

theorem arrNew_is {α : Type} : (arrNew : Arr α).Is [] := ⟨rfl, [], rfl⟩

/-- There is room for one more element. -/
theorem arrRoom_is {α : Type} {a : Arr α} {l : List α} (h : a.Is l) : (arrRoom a).Is l ∧ l.length < (arrRoom a).cells.length := by
  obtain ⟨h1, rest, h2⟩ := h
  unfold arrRoom
  split
  · refine ⟨⟨h1, rest ++ List.replicate (growBy a.cells.length) none, ?_⟩, ?_⟩
    · unfold arrGrow
      rw [h2]
      simp only [List.append_assoc]
    · unfold arrGrow
      simp only [List.length_append, List.length_replicate]
      have : 0 < growBy a.cells.length := by
        unfold growBy
        split <;> omega
      rw [h2, List.length_append, List.length_map] at *
      omega
  · rename_i hlt
    exact ⟨⟨h1, rest, h2⟩, by omega⟩

theorem shiftUp_spec {α : Type} (index : Nat) : ∀ (i : Nat) (a : Arr α), index ≤ i → i < a.cells.length →
    (∀ j, j < i → ∃ x, a.cells[j]? = some (some x)) →
    ∃ b, shiftUp index i a = .ok b ∧ b.size = a.size ∧ b.cells.length = a.cells.length ∧
      ∀ j, b.cells[j]? = if index < j ∧ j ≤ i then a.cells[j - 1]? else a.cells[j]? := by
  intro i
  induction i with
  | zero =>
    intro a h0 _ _
    refine ⟨a, rfl, rfl, rfl, fun j => ?_⟩
    rw [if_neg (by omega)]
  | succ i ih =>
    intro a h1 h2 h3
    rw [shiftUp]
    split
    · rename_i hi
      obtain ⟨x, hx⟩ := h3 i (by omega)
      rw [arrRead_get hx]
      simp only [arrWrite, if_pos h2]
      obtain ⟨b, g1, g2, g3, g4⟩ := ih { a with cells := a.cells.set (i + 1) (some x) } (by omega) (by simp; omega) (by
        intro j hj
        simp only [List.getElem?_set, show ¬ i + 1 = j by omega, if_false]
        exact h3 j (by omega))
      refine ⟨b, g1, g2, by rw [g3]; simp, fun j => ?_⟩
      rw [g4]
      simp only [List.getElem?_set]
      by_cases c1 : index < j ∧ j ≤ i
      · rw [if_pos c1, if_neg (by omega), if_pos (by omega)]
      · rw [if_neg c1]
        by_cases c2 : i + 1 = j
        · subst c2
          rw [if_pos rfl, if_pos h2, if_pos (by omega), ← hx]
          congr 1
        · rw [if_neg c2, if_neg (by omega)]
    · refine ⟨a, rfl, rfl, rfl, fun j => ?_⟩
      rw [if_neg (by omega)]

theorem shiftDown_spec {α : Type} : ∀ (k i : Nat) (a : Arr α), i + k < a.cells.length ∨ k = 0 →
    (∀ j, i < j → j ≤ i + k → ∃ x, a.cells[j]? = some (some x)) →
    ∃ b, shiftDown i k a = .ok b ∧ b.size = a.size ∧ b.cells.length = a.cells.length ∧
      ∀ j, b.cells[j]? = if i ≤ j ∧ j < i + k then a.cells[j + 1]? else a.cells[j]? := by
  intro k
  induction k with
  | zero =>
    intro i a _ _
    refine ⟨a, rfl, rfl, rfl, fun j => ?_⟩
    rw [if_neg (by omega)]
  | succ k ih =>
    intro i a h1 h2
    obtain ⟨x, hx⟩ := h2 (i + 1) (by omega) (by omega)
    rw [shiftDown, arrRead_get hx]
    simp only [arrWrite, if_pos (show i < a.cells.length by omega)]
    obtain ⟨b, g1, g2, g3, g4⟩ := ih (i + 1) { a with cells := a.cells.set i (some x) } (by simp; omega) (by
      intro j hj hj'
      simp only [List.getElem?_set, show ¬ i = j by omega, if_false]
      exact h2 j (by omega) (by omega))
    refine ⟨b, g1, g2, by rw [g3]; simp, fun j => ?_⟩
    rw [g4]
    simp only [List.getElem?_set]
    by_cases c1 : i + 1 ≤ j ∧ j < i + 1 + k
    · rw [if_pos c1, if_neg (by omega), if_pos (by omega)]
    · rw [if_neg c1]
      by_cases c2 : i = j
      · subst c2
        rw [if_pos rfl, if_pos (by omega), if_pos (by omega), hx]
      · rw [if_neg c2, if_neg (by omega)]

theorem arrInsert_is {α : Type} {a : Arr α} {l : List α} (h : a.Is l) (hl : l.length < 2 ^ 32) {index : Nat} (hi : index ≤ l.length) (x : α) :
    ∃ b, arrInsert a index x = .ok b ∧ b.Is (l.take index ++ x :: l.drop index) := by
  obtain ⟨h1, h2⟩ := arrRoom_is h
  unfold arrInsert
  have hs := h.1
  obtain ⟨b, g1, g2, g3, g4⟩ := shiftUp_spec index l.length { arrRoom a with size := a.size + 1 } hi h2 (fun j hj => ⟨_, h1.get hj⟩)
  rw [hs, Nat.mod_eq_of_lt hl]
  rw [hs] at g1
  rw [g1]
  simp only [arrWrite]
  rw [if_pos (show index < b.cells.length by rw [g3]; exact Nat.lt_of_le_of_lt hi h2)]
  refine ⟨_, rfl, Arr.is_of_get ?_ ?_⟩
  · simp only [g2, hs, List.length_append, List.length_take, List.length_cons, List.length_drop]
    omega
  · intro i hii
    simp only [List.length_append, List.length_take, List.length_cons, List.length_drop] at hii
    simp only [List.getElem?_set]
    by_cases c1 : index = i
    · subst c1
      rw [if_pos rfl, if_pos (by rw [g3]; exact Nat.lt_of_le_of_lt hi h2)]
      rw [List.getElem_append_right (by rw [List.length_take]; omega)]
      simp [Nat.min_eq_left hi]
    · rw [if_neg c1, g4]
      by_cases c2 : index < i
      · rw [if_pos ⟨c2, by omega⟩, h1.get (show i - 1 < l.length by omega)]
        rw [List.getElem_append_right (by rw [List.length_take]; omega)]
        simp only [List.length_take, Nat.min_eq_left hi]
        obtain ⟨d, rfl⟩ : ∃ d, i = index + 1 + d := ⟨i - index - 1, by omega⟩
        simp only [show index + 1 + d - index = d + 1 by omega, List.getElem_cons_succ, List.getElem_drop]
        congr 2
        simp only [show index + 1 + d - 1 = index + d by omega]
      · rw [if_neg (by omega), h1.get (show i < l.length by omega)]
        rw [List.getElem_append_left (by rw [List.length_take]; omega), List.getElem_take]

theorem shiftDownFrom_is {α : Type} {a : Arr α} {l : List α} (h : a.Is l) (hl : l.length ≤ 2 ^ 32) {i : Nat} (hi : i < l.length) :
    ∃ b, shiftDownFrom i a = .ok b ∧ b.size = a.size ∧ { b with size := b.size - 1 }.Is (l.take i ++ l.drop (i + 1)) := by
  have hs := h.1
  have hle := h.le
  unfold shiftDownFrom
  rw [if_neg (by omega)]
  obtain ⟨b, g1, g2, g3, g4⟩ := shiftDown_spec (a.size - 1 - i) i a (by omega) (fun j hj hj' => ⟨_, h.get (show j < l.length by omega)⟩)
  refine ⟨b, g1, g2, Arr.is_of_get ?_ ?_⟩
  · simp only [g2, hs, List.length_append, List.length_take, List.length_drop]
    omega
  · intro j hj
    simp only [List.length_append, List.length_take, List.length_drop] at hj
    simp only []
    rw [g4]
    by_cases c : i ≤ j
    · rw [if_pos ⟨c, by omega⟩, h.get (show j + 1 < l.length by omega), List.getElem_append_right (by rw [List.length_take]; omega), List.getElem_drop]
      simp only [List.length_take]
      congr 2
      simp only [Nat.min_eq_left (show i ≤ l.length by omega), show i + 1 + (j - i) = j + 1 by omega]
    · rw [if_neg (by omega), h.get (show j < l.length by omega), List.getElem_append_left (by rw [List.length_take]; omega), List.getElem_take]

/-! ### Networks -/

theorem arrFindLoop_is {a : Arr Network} {l : NetList} (h : a.Is l) (n : Network) : ∀ (fuel : Nat) (lo hi i : Int) (r : Int × Bool),
    findLoop l n lo hi i fuel = .ok r → arrFindLoop a n lo hi i fuel = .ok r := by
  intro fuel
  induction fuel with
  | zero => intro lo hi i r hr; cases hr
  | succ fuel ih =>
    intro lo hi i r hr
    rw [findLoop] at hr
    rw [arrFindLoop]
    split at hr
    · rename_i hlh
      rw [if_pos hlh]
      simp only [] at hr
      split at hr
      · cases hr
      rename_i hneg
      rw [if_neg hneg]
      split at hr
      · cases hr
      rename_i e he
      obtain ⟨hlt, rfl⟩ := List.getElem?_eq_some_iff.mp he
      rw [arrRead_is h hlt]
      simp only []
      split at hr
      · rename_i c; rw [if_pos c]; exact hr
      rename_i c
      rw [if_neg c]
      split at hr
      · rename_i c; rw [if_pos c]; exact ih _ _ _ _ hr
      · rename_i c; rw [if_neg c]; exact ih _ _ _ _ hr
    · rename_i hlh
      rw [if_neg hlh]
      exact hr

theorem arrFind_is {a : Arr Network} {l : NetList} (h : a.Is l) (n : Network) {r : Int × Bool} (hr : listFind l n = .ok r) : arrFind a n = .ok r := by
  unfold listFind at hr
  unfold arrFind
  have hs := h.1
  split at hr
  · rename_i h0
    rw [if_pos (by omega)]
    exact hr
  rename_i h0
  rw [if_neg (by omega)]
  have ht : ((l.length : Int) - 1).toNat = l.length - 1 := by omega
  simp only [ht] at hr
  rw [List.getElem?_eq_getElem (show l.length - 1 < l.length by omega)] at hr
  simp only [] at hr
  have hrd := arrRead_is h (show l.length - 1 < l.length by omega)
  rw [hs, hrd]
  simp only []
  split at hr
  · rename_i c; rw [if_pos c]; exact hr
  rename_i c
  rw [if_neg c]
  split at hr
  · rename_i c; rw [if_pos c]; exact hr
  · rename_i c; rw [if_neg c]; exact arrFindLoop_is h n _ _ _ _ _ hr

theorem arrPush_is {a : Arr Network} {l l' : NetList} (h : a.Is l) (hl : l.length < 2 ^ 32) {n : Network} (hp : listPush l n = .ok l') :
    ∃ b, arrPush a n = .ok b ∧ b.Is l' := by
  unfold listPush at hp
  unfold arrPush
  cases hf : listFind l n with
  | error e => rw [hf] at hp; cases hp
  | ok r =>
    obtain ⟨index, found⟩ := r
    rw [hf] at hp
    rw [arrFind_is h n hf]
    simp only [bind, Except.bind] at hp ⊢
    cases found with
    | true => cases hp; exact ⟨a, rfl, h⟩
    | false =>
      simp only [Bool.false_eq_true, if_false] at hp ⊢
      split at hp
      · cases hp
      rename_i hb
      cases hp
      rw [if_neg (by omega)]
      exact arrInsert_is h hl (by omega) n

theorem arrPop_is {a : Arr Network} {l : NetList} (h : a.Is l) : ∃ b, arrPop a = .ok ((listPop l).1, b) ∧ b.Is (listPop l).2 := by
  have hs := h.1
  unfold arrPop listPop
  by_cases h0 : l.length = 0
  · rw [if_pos (by omega), if_pos h0]
    exact ⟨a, rfl, h⟩
  · rw [if_neg (by omega), if_neg h0]
    have hrd := arrRead_is h (show l.length - 1 < l.length by omega)
    rw [hs, hrd]
    refine ⟨_, by rw [List.getElem?_eq_getElem (show l.length - 1 < l.length by omega)], Arr.is_of_get ?_ ?_⟩
    · simp only [List.length_take]; omega
    · intro i hi
      simp only [List.length_take] at hi
      simp only [List.getElem_take]
      exact h.get (by omega)

theorem arrPopFirst_is {a : Arr Network} {l : NetList} (h : a.Is l) (hl : l.length ≤ 2 ^ 32) :
    ∃ b, arrPopFirst a = .ok ((listPopFirst l).1, b) ∧ b.Is (listPopFirst l).2 := by
  have hs := h.1
  unfold arrPopFirst
  cases l with
  | nil => exact ⟨a, by rw [if_pos (show a.size = 0 from hs)]; rfl, h⟩
  | cons n l =>
    rw [if_neg (by rw [hs]; simp)]
    have hrd := arrRead_is h (show 0 < (n :: l).length by simp)
    rw [hrd]
    obtain ⟨b, g1, -, g2⟩ := shiftDownFrom_is h hl (i := 0) (by simp)
    rw [g1]
    exact ⟨_, rfl, g2⟩

theorem arrRemove_is {a : Arr Network} {l l' : NetList} (h : a.Is l) (hl : l.length ≤ 2 ^ 32) {n : Network} (hp : listRemove l n = .ok l') :
    ∃ b, arrRemove a n = .ok b ∧ b.Is l' := by
  unfold listRemove at hp
  unfold arrRemove
  cases hf : listFind l n with
  | error e => rw [hf] at hp; cases hp
  | ok r =>
    obtain ⟨index, found⟩ := r
    rw [hf] at hp
    rw [arrFind_is h n hf]
    simp only [bind, Except.bind] at hp ⊢
    cases found with
    | false => cases hp; exact ⟨a, rfl, h⟩
    | true =>
      simp only [Bool.not_true, Bool.false_eq_true, if_false] at hp ⊢
      split at hp
      · cases hp
      rename_i hb
      cases hp
      rw [if_neg (by omega), arrRead_is h (show index.toNat < l.length by omega)]
      obtain ⟨b, g1, -, g2⟩ := shiftDownFrom_is h hl (i := index.toNat) (by omega)
      simp only [g1]
      exact ⟨_, rfl, g2⟩

theorem arrContains_is {a : Arr Network} {l : NetList} (h : a.Is l) {n : Network} {r : Bool} (hp : listContains l n = .ok r) : arrContains a n = .ok r := by
  unfold listContains at hp
  unfold arrContains
  cases hf : listFind l n with
  | error e => rw [hf] at hp; cases hp
  | ok x =>
    rw [hf] at hp
    rw [arrFind_is h n hf]
    exact hp

theorem listPush_length {l l' : NetList} {n : Network} (hp : listPush l n = .ok l') : l'.length ≤ l.length + 1 := by
  unfold listPush at hp
  cases hf : listFind l n with
  | error e => rw [hf] at hp; cases hp
  | ok r =>
    obtain ⟨index, found⟩ := r
    rw [hf] at hp
    simp only [bind, Except.bind] at hp
    cases found with
    | true => cases hp; omega
    | false =>
      simp only [Bool.false_eq_true, if_false] at hp
      split at hp
      · cases hp
      · cases hp
        simp only [List.length_append, List.length_take, List.length_cons, List.length_drop]
        omega

theorem arrMerge_is : ∀ (other : NetList) {a : Arr Network} {l l' : NetList}, a.Is l → l.length + other.length ≤ 2 ^ 32 → listMerge l other = .ok l' →
    ∃ b, arrMerge a other = .ok b ∧ b.Is l' := by
  intro other
  induction other with
  | nil => intro a l l' h _ hm; cases hm; exact ⟨a, rfl, h⟩
  | cons n other ih =>
    intro a l l' h hl hm
    rw [listMerge] at hm
    cases hp : listPush l n with
    | error e => rw [hp] at hm; cases hm
    | ok l1 =>
      rw [hp] at hm
      obtain ⟨b, g1, g2⟩ := arrPush_is h (by simp only [List.length_cons] at hl; omega) hp
      have := listPush_length hp
      rw [arrMerge, g1]
      exact ih g2 (by simp only [List.length_cons] at hl; omega) hm

theorem arrGet_is {α : Type} {a : Arr α} {l : List α} (h : a.Is l) (i : Nat) : arrGet a i = .ok (if i ≥ l.length then none else l[i]?) := by
  have hs := h.1
  unfold arrGet
  rw [hs]
  by_cases hi : i ≥ l.length
  · rw [if_pos hi, if_pos hi]
  · rw [if_neg hi, if_neg hi, arrRead_is h (by omega), List.getElem?_eq_getElem (by omega)]

theorem compactLoop_spec (pfx : Nat) : ∀ (T D : List Network) (G rest : List (Option Network)) (a : Arr Network),
    a.cells = D.map some ++ G ++ T.map some ++ rest →
    ∃ b r, compactLoop pfx (D.length + G.length) G.length T.length a = .ok (r, b) ∧ b.size = a.size ∧
      r + (D ++ T.filter fun n => !decide (netPrefix n > pfx)).length = D.length + G.length + T.length ∧
      ∃ rest', b.cells = (D ++ T.filter fun n => !decide (netPrefix n > pfx)).map some ++ rest' := by
  intro T
  induction T with
  | nil =>
    intro D G rest a h
    refine ⟨a, G.length, rfl, rfl, by simp; omega, G ++ rest, ?_⟩
    rw [h]
    simp
  | cons n T ih =>
    intro D G rest a h
    have hget : a.cells[D.length + G.length]? = some (some n) := by
      rw [h, List.append_assoc, List.getElem?_append_right (by simp)]
      simp
    rw [List.length_cons, compactLoop, arrRead_get hget]
    simp only []
    by_cases hp : netPrefix n > pfx
    · rw [if_pos hp]
      obtain ⟨b, r, g1, g2, g3, g4⟩ := ih D (G ++ [some n]) rest a (by rw [h]; simp)
      refine ⟨b, r, ?_, g2, ?_, ?_⟩
      · rw [← g1]
        simp only [List.length_append, List.length_singleton, Nat.add_assoc]
      · rw [List.filter_cons, if_neg (by simpa using hp), g3]
        simp only [List.length_append, List.length_singleton]
        omega
      · rw [List.filter_cons, if_neg (by simpa using hp)]
        exact g4
    · rw [if_neg hp]
      have hw : D.length + G.length - G.length = D.length := by omega
      rw [hw]
      have hlen : D.length < a.cells.length := by rw [h]; simp; omega
      simp only [arrWrite, if_pos hlen]
      have hset : ∃ G', G'.length = G.length ∧ a.cells.set D.length (some n) = (D ++ [n]).map some ++ G' ++ T.map some ++ rest := by
        cases G with
        | nil =>
          refine ⟨[], rfl, ?_⟩
          rw [h]
          simp only [List.append_nil, List.map_cons, List.map_append, List.map_nil, List.append_assoc, List.cons_append, List.nil_append]
          rw [List.set_append_right _ _ (by simp)]
          simp
        | cons g G =>
          refine ⟨G ++ [some n], by simp, ?_⟩
          rw [h]
          simp only [List.map_cons, List.map_append, List.map_nil, List.append_assoc, List.cons_append, List.nil_append]
          rw [List.set_append_right _ _ (by simp)]
          simp
      obtain ⟨G', hG, hset⟩ := hset
      obtain ⟨b, r, g1, g2, g3, g4⟩ := ih (D ++ [n]) G' rest { a with cells := a.cells.set D.length (some n) } hset
      refine ⟨b, r, ?_, g2, ?_, ?_⟩
      · rw [← g1, hG]
        congr 1
        simp only [List.length_append, List.length_singleton]
        omega
      · rw [List.filter_cons, if_pos (by simpa using hp)]
        simp only [List.length_append, List.length_cons, List.length_nil, hG] at g3 ⊢
        omega
      · rw [List.filter_cons, if_pos (by simpa using hp)]
        simpa using g4

theorem arrRemoveLonger_is {a : Arr Network} {l : NetList} (h : a.Is l) (hl : l.length ≤ 2 ^ 32) (pfx : Nat) :
    ∃ b, arrRemoveLonger a pfx = .ok b ∧ b.Is (listRemoveLonger l pfx) := by
  obtain ⟨hs, rest, hc⟩ := h
  unfold arrRemoveLonger
  rw [if_neg (by omega)]
  obtain ⟨b, r, g1, g2, g3, rest', g4⟩ := compactLoop_spec pfx l [] [] rest a (by simpa using hc)
  simp only [List.length_nil, Nat.add_zero] at g1
  rw [hs, g1]
  refine ⟨_, rfl, ?_, rest', ?_⟩
  · simp only [g2, hs]
    unfold listRemoveLonger
    simp only [List.nil_append, List.length_nil] at g3
    omega
  · simpa [listRemoveLonger] using g4

/-! ### ASes and countries -/

theorem arrAny_is {α : Type} {a : Arr α} {l : List α} (h : a.Is l) (p : α → Bool) : ∀ (k i : Nat), i + k = l.length → arrAny p a i k = .ok ((l.drop i).any p) := by
  intro k
  induction k with
  | zero =>
    intro i hi
    rw [arrAny, List.drop_of_length_le (by omega)]
    rfl
  | succ k ih =>
    intro i hi
    rw [arrAny, arrRead_is h (show i < l.length by omega), List.drop_eq_getElem_cons (show i < l.length by omega), List.any_cons]
    simp only []
    split
    · rename_i hp; rw [hp, Bool.true_or]
    · rename_i hp
      rw [ih (i + 1) (by omega), Bool.eq_false_iff.mpr hp, Bool.false_or]

theorem arrAppend_is {α : Type} {a : Arr α} {l : List α} (h : a.Is l) (hl : l.length ≤ 2 ^ 32) (same : α → α → Bool) (x : α) :
    ∃ b, arrAppend same a x = .ok b ∧ b.Is (if l.any (same x) then l else l ++ [x]) := by
  have hs := h.1
  unfold arrAppend
  rw [if_neg (by omega), hs, arrAny_is h (same x) l.length 0 (by omega), List.drop_zero]
  cases hany : l.any (same x) with
  | true => exact ⟨a, rfl, h⟩
  | false =>
    obtain ⟨h1, h2⟩ := arrRoom_is h
    simp only [arrWrite, Bool.false_eq_true, if_false, if_pos h2]
    refine ⟨_, rfl, Arr.is_of_get ?_ ?_⟩
    · simp
    · intro i hi
      simp only [List.length_append, List.length_singleton] at hi
      simp only [List.getElem?_set]
      by_cases c : l.length = i
      · subst c
        rw [if_pos rfl, if_pos h2]
        simp
      · rw [if_neg c, h1.get (show i < l.length by omega), List.getElem_append_left (by omega)]

end Loc
