import Verif.Spec.CliText
import Verif.Lemmas.Dump
/-
Reading back what `location lookup` shows.
-/
namespace Loc
open Spec

theorem joined_lines : ∀ {ls : List Bytes}, (∀ l ∈ ls, 10 ∉ l) → fileLines (ls.flatMap (· ++ [10])) = ls.map (· ++ [10])
  | [], _ => by rw [List.flatMap_nil, List.map_nil, fileLines]
  | l :: ls, h => by
    rw [List.flatMap_cons, List.append_assoc, List.singleton_append, fileLines_cons (h l List.mem_cons_self),
      joined_lines (fun x hx => h x (List.mem_cons_of_mem _ hx)), List.map_cons]

theorem joined_injective {ls ms : List Bytes} (h1 : ∀ l ∈ ls, 10 ∉ l) (h2 : ∀ l ∈ ms, 10 ∉ l)
    (h : ls.flatMap (· ++ [10]) = ms.flatMap (· ++ [10])) : ls = ms := by
  have := congrArg fileLines h
  rw [joined_lines h1, joined_lines h2] at this
  exact List.map_inj_right (fun a b hab => List.append_cancel_right hab) |>.mp this

/-- The first 28 bytes of a line: the label. -/
def labelOf (l : Bytes) : Bytes := l.take 28

theorem mem_shownMore {x : Displayed} {l : Bytes} : l ∈ shownMore x ↔
    (∃ t, x.country = some t ∧ l = ascii "  Country                 : " ++ t) ∨ (∃ t, x.as = some t ∧ l = ascii "  Autonomous System       : " ++ t) ∨
    (x.proxy = true ∧ l = ascii "  Anonymous Proxy         : yes") ∨ (x.satellite = true ∧ l = ascii "  Satellite Provider      : yes") ∨
    (x.anycast = true ∧ l = ascii "  Anycast                 : yes") ∨ (x.drop = true ∧ l = ascii "  Hostile Network safe to drop: yes") := by
  have ho : ∀ (o : Option Bytes) (p : Bytes), l ∈ o.toList.map (p ++ ·) ↔ ∃ t, o = some t ∧ l = p ++ t := by
    intro o p
    cases o with
    | none => simp
    | some t => simp
  have hb : ∀ (b : Bool) (p : Bytes), l ∈ (if b then [p] else []) ↔ b = true ∧ l = p := by
    intro b p
    cases b <;> simp
  unfold shownMore
  rw [List.mem_append, List.mem_append, List.mem_append, List.mem_append, List.mem_append, ho, ho, hb, hb, hb, hb]
  simp only [or_assoc]

theorem label_country (t : Bytes) : labelOf (ascii "  Country                 : " ++ t) = ascii "  Country                 : " :=
  List.take_left' (by decide)

theorem label_as (t : Bytes) : labelOf (ascii "  Autonomous System       : " ++ t) = ascii "  Autonomous System       : " :=
  List.take_left' (by decide)

theorem shownMore_injective {x y : Displayed} (h : shownMore x = shownMore y) :
    x.country = y.country ∧ x.as = y.as ∧ x.proxy = y.proxy ∧ x.satellite = y.satellite ∧ x.anycast = y.anycast ∧ x.drop = y.drop := by
  have key : ∀ {x y : Displayed}, shownMore x = shownMore y →
      (∀ t, x.country = some t → y.country = some t) ∧ (∀ t, x.as = some t → y.as = some t) ∧ (x.proxy = true → y.proxy = true) ∧
      (x.satellite = true → y.satellite = true) ∧ (x.anycast = true → y.anycast = true) ∧ (x.drop = true → y.drop = true) := by
    intro x y h
    have hm : ∀ l, l ∈ shownMore x → l ∈ shownMore y := fun l hl => h ▸ hl
    have no : ∀ {a b : Bytes}, a = b → labelOf a ≠ labelOf b → False := fun e n => n (congrArg labelOf e)
    refine ⟨fun t ht => ?_, fun t ht => ?_, fun ht => ?_, fun ht => ?_, fun ht => ?_, fun ht => ?_⟩
    · rcases mem_shownMore.mp (hm _ (mem_shownMore.mpr (.inl ⟨t, ht, rfl⟩))) with ⟨u, g1, g2⟩ | ⟨u, g1, g2⟩ | ⟨g1, g2⟩ | ⟨g1, g2⟩ | ⟨g1, g2⟩ | ⟨g1, g2⟩
      · rw [List.append_cancel_left g2]; exact g1
      all_goals exact (no g2 (by (try rw [label_country]); (try rw [label_as]); decide)).elim
    · rcases mem_shownMore.mp (hm _ (mem_shownMore.mpr (.inr (.inl ⟨t, ht, rfl⟩)))) with ⟨u, g1, g2⟩ | ⟨u, g1, g2⟩ | ⟨g1, g2⟩ | ⟨g1, g2⟩ | ⟨g1, g2⟩ | ⟨g1, g2⟩
      rotate_left
      · rw [List.append_cancel_left g2]; exact g1
      all_goals exact (no g2 (by (try rw [label_as]); (try rw [label_country]); decide)).elim
    · rcases mem_shownMore.mp (hm _ (mem_shownMore.mpr (.inr (.inr (.inl ⟨ht, rfl⟩))))) with ⟨u, g1, g2⟩ | ⟨u, g1, g2⟩ | ⟨g1, g2⟩ | ⟨g1, g2⟩ | ⟨g1, g2⟩ | ⟨g1, g2⟩
      all_goals first
        | exact g1
        | exact (no g2 (by (try rw [label_as]); (try rw [label_country]); decide)).elim
    · rcases mem_shownMore.mp (hm _ (mem_shownMore.mpr (.inr (.inr (.inr (.inl ⟨ht, rfl⟩)))))) with ⟨u, g1, g2⟩ | ⟨u, g1, g2⟩ | ⟨g1, g2⟩ | ⟨g1, g2⟩ | ⟨g1, g2⟩ | ⟨g1, g2⟩
      all_goals first
        | exact g1
        | exact (no g2 (by (try rw [label_as]); (try rw [label_country]); decide)).elim
    · rcases mem_shownMore.mp (hm _ (mem_shownMore.mpr (.inr (.inr (.inr (.inr (.inl ⟨ht, rfl⟩))))))) with ⟨u, g1, g2⟩ | ⟨u, g1, g2⟩ | ⟨g1, g2⟩ | ⟨g1, g2⟩ | ⟨g1, g2⟩ | ⟨g1, g2⟩
      all_goals first
        | exact g1
        | exact (no g2 (by (try rw [label_as]); (try rw [label_country]); decide)).elim
    · rcases mem_shownMore.mp (hm _ (mem_shownMore.mpr (.inr (.inr (.inr (.inr (.inr ⟨ht, rfl⟩))))))) with ⟨u, g1, g2⟩ | ⟨u, g1, g2⟩ | ⟨g1, g2⟩ | ⟨g1, g2⟩ | ⟨g1, g2⟩ | ⟨g1, g2⟩
      all_goals first
        | exact g1
        | exact (no g2 (by (try rw [label_as]); (try rw [label_country]); decide)).elim
  obtain ⟨a1, a2, a3, a4, a5, a6⟩ := key h
  obtain ⟨b1, b2, b3, b4, b5, b6⟩ := key h.symm
  have ho : ∀ {p q : Option Bytes}, (∀ t, p = some t → q = some t) → (∀ t, q = some t → p = some t) → p = q := by
    intro p q h1 h2
    cases p with
    | some t => exact (h1 t rfl).symm
    | none =>
      cases q with
      | none => rfl
      | some t => exact h2 t rfl
  exact ⟨ho a1 b1, ho a2 b2, Bool.eq_iff_iff.mpr ⟨a3, b3⟩, Bool.eq_iff_iff.mpr ⟨a4, b4⟩, Bool.eq_iff_iff.mpr ⟨a5, b5⟩, Bool.eq_iff_iff.mpr ⟨a6, b6⟩⟩

theorem shownMore_space {x : Displayed} {l : Bytes} (h : l ∈ shownMore x) : l.head? = some 32 := by
  rcases mem_shownMore.mp h with ⟨u, -, rfl⟩ | ⟨u, -, rfl⟩ | ⟨-, rfl⟩ | ⟨-, rfl⟩ | ⟨-, rfl⟩ | ⟨-, rfl⟩ <;> rfl

theorem shownMore_plain {x : Displayed} (hx : PlainDisplay x) {l : Bytes} (h : l ∈ shownMore x) : 10 ∉ l := by
  rcases mem_shownMore.mp h with ⟨u, hu, rfl⟩ | ⟨u, hu, rfl⟩ | ⟨-, rfl⟩ | ⟨-, rfl⟩ | ⟨-, rfl⟩ | ⟨-, rfl⟩
  · exact not_mem_append' (by decide) (hx.country u hu)
  · exact not_mem_append' (by decide) (hx.as u hu)
  all_goals decide

theorem shownLines_plain {x : Displayed} (hx : PlainDisplay x) {l : Bytes} (h : l ∈ shownLines x) : 10 ∉ l := by
  rcases List.mem_cons.mp h with rfl | h
  · exact not_mem_append' hx.address (by decide)
  · rcases List.mem_cons.mp h with rfl | h
    · exact not_mem_append' (by decide) hx.network
    · exact shownMore_plain hx h

/-- Lines up to the first that does not begin with a space. -/
theorem split_spaces : ∀ {a b r s : List Bytes}, (∀ l ∈ a, l.head? = some 32) → (∀ l ∈ b, l.head? = some 32) →
    (∀ l, r.head? = some l → l.head? ≠ some 32) → (∀ l, s.head? = some l → l.head? ≠ some 32) → a ++ r = b ++ s → a = b ∧ r = s
  | [], [], _, _, _, _, _, _, h => ⟨rfl, h⟩
  | [], b :: bs, r, s, _, hb, hr, _, h => by
    rw [List.nil_append, List.cons_append] at h
    exact absurd (hb b List.mem_cons_self) (hr b (by rw [h]; rfl))
  | a :: as, [], r, s, ha, _, _, hs, h => by
    rw [List.nil_append, List.cons_append] at h
    exact absurd (ha a List.mem_cons_self) (hs a (by rw [← h]; rfl))
  | a :: as, b :: bs, r, s, ha, hb, hr, hs, h => by
    rw [List.cons_append, List.cons_append] at h
    injection h with h1 h2
    obtain ⟨e1, e2⟩ := split_spaces (fun l hl => ha l (List.mem_cons_of_mem _ hl)) (fun l hl => hb l (List.mem_cons_of_mem _ hl)) hr hs h2
    exact ⟨by rw [h1, e1], e2⟩

theorem shown_first {xs : List Displayed} (hx : ∀ x ∈ xs, PlainDisplay x) : ∀ l, (xs.flatMap shownLines).head? = some l → l.head? ≠ some 32 := by
  intro l hl
  cases xs with
  | nil => cases hl
  | cons x xs =>
    have : l = x.address ++ ascii ":" := by
      unfold shownLines at hl
      rw [List.flatMap_cons, List.cons_append] at hl
      exact (Option.some.inj hl).symm
    rw [this]
    have hs := (hx x List.mem_cons_self).start
    cases hc : x.address with
    | nil => decide
    | cons c cs =>
      rw [hc] at hs
      exact hs

theorem shown_injective : ∀ {xs ys : List Displayed}, (∀ x ∈ xs, PlainDisplay x) → (∀ y ∈ ys, PlainDisplay y) →
    xs.flatMap shownLines = ys.flatMap shownLines → xs = ys
  | [], [], _, _, _ => rfl
  | [], y :: ys, _, _, h => by
    rw [List.flatMap_cons, List.flatMap_nil] at h
    unfold shownLines at h
    cases h
  | x :: xs, [], _, _, h => by
    rw [List.flatMap_cons, List.flatMap_nil] at h
    unfold shownLines at h
    cases h
  | x :: xs, y :: ys, hx, hy, h => by
    rw [List.flatMap_cons, List.flatMap_cons] at h
    have e1 : shownLines x = (x.address ++ ascii ":") :: (ascii "  Network                 : " ++ x.network) :: shownMore x := rfl
    have e2 : shownLines y = (y.address ++ ascii ":") :: (ascii "  Network                 : " ++ y.network) :: shownMore y := rfl
    rw [e1, e2, List.cons_append, List.cons_append, List.cons_append, List.cons_append] at h
    injection h with h1 h
    injection h with h2 h
    have hx' : ∀ z ∈ xs, PlainDisplay z := fun z hz => hx z (List.mem_cons_of_mem _ hz)
    have hy' : ∀ z ∈ ys, PlainDisplay z := fun z hz => hy z (List.mem_cons_of_mem _ hz)
    obtain ⟨h3, h4⟩ := split_spaces (fun l hl => shownMore_space hl) (fun l hl => shownMore_space hl) (shown_first hx') (shown_first hy') h
    obtain ⟨g1, g2, g3, g4, g5, g6⟩ := shownMore_injective h3
    rw [shown_injective hx' hy' h4]
    congr 1
    cases x; cases y
    simp only at g1 g2 g3 g4 g5 g6 h1 h2
    rw [g1, g2, g3, g4, g5, g6, List.append_cancel_right h1, List.append_cancel_left h2]

end Loc
