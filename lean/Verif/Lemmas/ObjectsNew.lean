import Verif.Lemmas.Objects
/-
Reference counts: the functions that create, fill and search objects.
-/
namespace Loc.Objects
open Spec

theorem refs_eq {s s' : OState} (h : s'.objs = s.objs) (i : Nat) : refs s' i = refs s i := by unfold refs; rw [h]
theorem contents_eq {s s' : OState} (h : s'.objs = s.objs) (i : Nat) : contents s' i = contents s i := by
  unfold contents; rw [h]
theorem kindOf_eq {s s' : OState} (h : s'.objs = s.objs) (i : Nat) : kindOf s' i = kindOf s i := by
  unfold kindOf; rw [contents_eq h]

/-- An object is kept alive by a reference in `e`, or by the fields of another object with a reference in `e`. -/
def Anchor (e : List Nat) (s : OState) (d : Nat) : Prop :=
  d ∈ e ∨ ∃ x ∈ e, x ≠ d ∧ ∃ o, contents s x = some o ∧ d ∈ owns o

theorem Anchor.live {A : Prop} {e e' : List Nat} {s : OState} {d : Nat} (h : Anchor e s d) (hI : Inv A s e')
    (he : ∀ x ∈ e, x ∈ e') : 0 < refs s d := by
  cases h with
  | inl h => exact hI.live (he _ h)
  | inr h =>
    obtain ⟨x, hx, _, o, ho, hd⟩ := h
    exact hI.field (hI.live (he _ hx)) ho hd

theorem Anchor.ext {e t : List Nat} {s s' : OState} {d : Nat} (h : Anchor e s d) (hE : Ext t s s') (ht : ∀ x ∈ t, x = d) :
    Anchor e s' d := by
  cases h with
  | inl h => exact .inl h
  | inr h =>
    obtain ⟨x, hx, hne, o, ho, hd⟩ := h
    exact .inr ⟨x, hx, hne, o, hE.content x o (fun hc => hne (ht x hc)) ho, hd⟩

theorem Anchor.nil {e : List Nat} {s s' : OState} {d : Nat} (h : Anchor e s d) (hE : Ext [] s s') : Anchor e s' d :=
  h.ext hE (fun _ hx => by cases hx)

theorem Anchor.mono {e e' : List Nat} {s : OState} {d : Nat} (h : Anchor e s d) (he : ∀ x ∈ e, x ∈ e') : Anchor e' s d := by
  cases h with
  | inl h => exact .inl (he _ h)
  | inr h =>
    obtain ⟨x, hx, hr⟩ := h
    exact .inr ⟨x, he _ hx, hr⟩

/-- The fields of an anchored object -/
theorem Anchor.look {A : Prop} {e : List Nat} {s : OState} {d : Nat} {k : OKind} (h : Anchor e s d) (hI : Inv A s e)
    (hk : kindOf s d = some k) : ∃ o, contents s d = some o ∧ o.kind = k ∧ 0 < refs s d := by
  obtain ⟨o, ho, hok⟩ := contents_of_kind hk
  exact ⟨o, ho, hok, h.live hI (fun _ hx => hx)⟩

section
variable {A : Prop} {e : List Nat} {s : OState}

/-- What a function leaves that returns a new object of some type, or NULL. -/
def Gives (A : Prop) (e t : List Nat) (s : OState) (k : OKind) (r : Option Nat) (s' : OState) : Prop :=
  Inv A s' (r.toList ++ e) ∧ Ext t s s' ∧ KAll s' r.toList k

theorem Gives.none {t : List Nat} {k : OKind} {s' : OState} (hI : Inv A s' e) (hE : Ext t s s') :
    Gives A e t s k none s' := ⟨hI, hE, KAll.none⟩

theorem Gives.some {t : List Nat} {k : OKind} {i : Nat} {s' : OState} (hI : Inv A s' (i :: e)) (hE : Ext t s s')
    (hk : kindOf s' i = some k) : Gives A e t s k (some i) s' := ⟨hI, hE, KAll.some hk⟩

theorem Gives.after {t : List Nat} {k : OKind} {s1 s' : OState} {r : Option Nat} (h : Gives A e t s1 k r s')
    (hE : Ext t s s1) : Gives A e t s k r s' := ⟨h.1, hE.trans h.2.1, h.2.2⟩

theorem Ext.absent {s s' : OState} {x : Nat} (h : Ext [] s s') (hx : contents s' x = none) : contents s x = none := by
  cases hc : contents s x with
  | none => rfl
  | some o => rw [h.content x o (by simp) hc] at hx; cases hx

/-- The same for functions that create the object. -/
def GivesNew (A : Prop) (e : List Nat) (s : OState) (k : OKind) (r : Option Nat) (s' : OState) : Prop :=
  Gives A e [] s k r s' ∧ ∀ x ∈ r.toList, contents s x = none

theorem GivesNew.none {k : OKind} {s' : OState} (hI : Inv A s' e) (hE : Ext [] s s') :
    GivesNew A e s k none s' := ⟨Gives.none hI hE, fun _ h => by cases h⟩

theorem GivesNew.some {k : OKind} {i : Nat} {s' : OState} (hI : Inv A s' (i :: e)) (hE : Ext [] s s')
    (hk : kindOf s' i = some k) (hn : contents s i = Option.none) : GivesNew A e s k (some i) s' :=
  ⟨Gives.some hI hE hk, fun x hx => by simp at hx; subst hx; exact hn⟩

theorem malloc_gives (hI : Inv A s e) : wp A malloc s (Gives A e [] s .block) := by
  unfold malloc
  refine wp_bind (wp_chance hI (fun r s1 hI1 hs1 => ?_))
  cases r with
  | true => exact wp_pure (Gives.none hI1 (Ext.same hs1))
  | false =>
    show wp A (create .block >>= fun i => pure (some i)) s1 _
    refine wp_bind (wp_create (o := .block) hI1 (fun f hf => by cases hf) trivial trivial
      (fun i s2 _ hI2 hE2 hc _ => ?_))
    exact wp_pure (Gives.some hI2 ((Ext.same hs1).trans hE2) (kind_of_contents hc))

theorem ctxNew_gives (hI : Inv A s e) : wp A ctxNew s (Gives A e [] s .ctx) := by
  unfold ctxNew
  refine wp_bind (wp_chance hI (fun r s1 hI1 hs1 => ?_))
  cases r with
  | true => exact wp_pure (Gives.none hI1 (Ext.same hs1))
  | false =>
    show wp A (create .ctx >>= fun i => pure (some i)) s1 _
    refine wp_bind (wp_create (o := .ctx) hI1 (fun f hf => by cases hf) trivial trivial
      (fun i s2 _ hI2 hE2 hc _ => ?_))
    exact wp_pure (Gives.some hI2 ((Ext.same hs1).trans hE2) (kind_of_contents hc))

theorem ctx_ne : OKind.ctx ≠ .block := by decide

theorem itemNew_gives_new (k : Item) {c : Nat} (key : Nat) (hI : Inv A s e) (hc : 0 < refs s c) (hk : kindOf s c = some .ctx) :
    wp A (itemNew k c key) s (GivesNew A e s (.item k)) := by
  unfold itemNew
  refine wp_bind (wp_chance hI (fun r s1 hI1 hs1 => ?_))
  cases r with
  | true => exact wp_pure (GivesNew.none hI1 (Ext.same hs1))
  | false =>
    simp only [Bool.false_eq_true, if_false]
    have hk1 : kindOf s1 c = some .ctx := by rw [kindOf_eq hs1]; exact hk
    refine wp_bind (wp_incr hI1 (by rw [refs_eq hs1]; exact hc) hk1 ctx_ne (fun s2 hI2 hE2 => ?_))
    refine wp_bind (wp_create (o := .item k c key none) (e := e) (hI2.congr (by counts))
      (typed_item.2 ⟨hE2.kind _ _ hk1, KAll.none⟩) trivial trivial (fun i s3 _ hI3 hE3 hc3 hn3 => ?_))
    refine wp_bind (wp_touch (hI3.field (hI3.live List.mem_cons_self) hc3 (by simp [owns_item])) ?_)
    exact wp_pure (GivesNew.some hI3 (((Ext.same hs1).trans hE2).trans hE3) (kind_of_contents hc3)
      (((Ext.same hs1).trans hE2).absent hn3))

theorem itemNew_gives (k : Item) {c : Nat} (key : Nat) (hI : Inv A s e) (hc : 0 < refs s c) (hk : kindOf s c = some .ctx) :
    wp A (itemNew k c key) s (Gives A e [] s (.item k)) :=
  wp_mono (itemNew_gives_new k key hI hc hk) (fun _ _ h => h.1)

theorem countryNew_gives_new {c : Nat} (code : CStr) (hI : Inv A s e) (hc : 0 < refs s c) (hk : kindOf s c = some .ctx) :
    wp A (countryNew c code) s (GivesNew A e s (.item .country)) := by
  unfold countryNew
  split
  · exact itemNew_gives_new _ _ hI hc hk
  · exact wp_pure (GivesNew.none hI (Ext.refl _ _))

theorem countryNew_gives {c : Nat} (code : CStr) (hI : Inv A s e) (hc : 0 < refs s c) (hk : kindOf s c = some .ctx) :
    wp A (countryNew c code) s (Gives A e [] s (.item .country)) :=
  wp_mono (countryNew_gives_new code hI hc hk) (fun _ _ h => h.1)

theorem listNew_gives_new (k : Item) {c : Nat} (hI : Inv A s e) (hc : 0 < refs s c) (hk : kindOf s c = some .ctx) :
    wp A (listNew k c) s (GivesNew A e s (.list k)) := by
  unfold listNew
  refine wp_bind (wp_chance hI (fun r s1 hI1 hs1 => ?_))
  cases r with
  | true => exact wp_pure (GivesNew.none hI1 (Ext.same hs1))
  | false =>
    simp only [Bool.false_eq_true, if_false]
    have hk1 : kindOf s1 c = some .ctx := by rw [kindOf_eq hs1]; exact hk
    refine wp_bind (wp_incr hI1 (by rw [refs_eq hs1]; exact hc) hk1 ctx_ne (fun s2 hI2 hE2 => ?_))
    refine wp_bind (wp_create (o := .list k c none 0 []) (e := e) (hI2.congr (by counts))
      (typed_list.2 ⟨hE2.kind _ _ hk1, KAll.none, fun _ h => by cases h⟩) (fun _ => ⟨rfl, rfl⟩) trivial
      (fun i s3 _ hI3 hE3 hc3 hn3 => ?_))
    refine wp_bind (wp_touch (hI3.field (hI3.live List.mem_cons_self) hc3 (by simp [owns_list])) ?_)
    exact wp_pure (GivesNew.some hI3 (((Ext.same hs1).trans hE2).trans hE3) (kind_of_contents hc3)
      (((Ext.same hs1).trans hE2).absent hn3))

theorem listNew_gives (k : Item) {c : Nat} (hI : Inv A s e) (hc : 0 < refs s c) (hk : kindOf s c = some .ctx) :
    wp A (listNew k c) s (Gives A e [] s (.list k)) :=
  wp_mono (listNew_gives_new k hI hc hk) (fun _ _ h => h.1)

theorem poolNew_gives_new {c : Nat} (hI : Inv A s e) (hc : 0 < refs s c) (hk : kindOf s c = some .ctx) :
    wp A (poolNew c) s (GivesNew A e s .pool) := by
  unfold poolNew
  refine wp_bind (wp_chance hI (fun r s1 hI1 hs1 => ?_))
  cases r with
  | true => exact wp_pure (GivesNew.none hI1 (Ext.same hs1))
  | false =>
    simp only [Bool.false_eq_true, if_false]
    have hk1 : kindOf s1 c = some .ctx := by rw [kindOf_eq hs1]; exact hk
    refine wp_bind (wp_incr hI1 (by rw [refs_eq hs1]; exact hc) hk1 ctx_ne (fun s2 hI2 hE2 => ?_))
    refine wp_bind (wp_create (o := .pool c none 0 0) (e := e) (hI2.congr (by counts))
      (typed_pool.2 ⟨hE2.kind _ _ hk1, KAll.none⟩) (fun _ => .inr rfl) trivial
      (fun i s3 _ hI3 hE3 hc3 hn3 => ?_))
    exact wp_pure (GivesNew.some hI3 (((Ext.same hs1).trans hE2).trans hE3) (kind_of_contents hc3)
      (((Ext.same hs1).trans hE2).absent hn3))

theorem poolNew_gives {c : Nat} (hI : Inv A s e) (hc : 0 < refs s c) (hk : kindOf s c = some .ctx) :
    wp A (poolNew c) s (Gives A e [] s .pool) := wp_mono (poolNew_gives_new hI hc hk) (fun _ _ h => h.1)

theorem treeNew_gives {c : Nat} (hI : Inv A s e) (hc : 0 < refs s c) (hk : kindOf s c = some .ctx) :
    wp A (treeNew c) s (Gives A e [] s .tree) := by
  unfold treeNew
  refine wp_bind (wp_chance hI (fun r s1 hI1 hs1 => ?_))
  cases r with
  | true => exact wp_pure (Gives.none hI1 (Ext.same hs1))
  | false =>
    simp only [Bool.false_eq_true, if_false]
    have hk1 : kindOf s1 c = some .ctx := by rw [kindOf_eq hs1]; exact hk
    refine wp_bind (wp_incr hI1 (by rw [refs_eq hs1]; exact hc) hk1 ctx_ne (fun s2 hI2 hE2 => ?_))
    have hE2' := (Ext.same (t := []) hs1).trans hE2
    refine wp_bind (wp_oddly hI2 (fun r s3 hodd hI3 hs3 => ?_))
    have hE3 := hE2'.trans (Ext.same hs3)
    have hk3 : kindOf s3 c = some .ctx := hE3.kind _ _ hk
    cases r with
    | true =>
      simp only [if_true]
      refine wp_bind (wp_create (o := .tree c none) (e := e) (hI3.congr (by counts))
        (typed_tree.2 ⟨hk3, KAll.none⟩) (.inl (hodd rfl)) trivial (fun i s4 _ hI4 hE4 hc4 _ => ?_))
      refine wp_bind (treeUnref_drops A _ _ _ _ hI4 (kind_of_contents hc4) (fun s5 hI5 hE5 => ?_))
      exact wp_pure (Gives.none hI5 ((hE3.trans hE4).trans hE5))
    | false =>
      simp only [Bool.false_eq_true, if_false]
      refine wp_bind (wp_incr hI3 (hI3.live List.mem_cons_self) hk3 ctx_ne (fun s4 hI4 hE4 => ?_))
      have hE4' := hE3.trans hE4
      refine wp_bind (wp_create (o := .node c) (e := c :: e) (hI4.congr (by counts))
        (typed_node.2 (hE4'.kind _ _ hk)) trivial trivial (fun n s5 _ hI5 hE5 hc5 _ => ?_))
      have hE5' := hE4'.trans hE5
      refine wp_bind (wp_create (o := .tree c (some n)) (e := e) (hI5.congr (by counts))
        (typed_tree.2 ⟨hE5'.kind _ _ hk, KAll.some (kind_of_contents hc5)⟩) (.inr (by simp)) trivial
        (fun i s6 _ hI6 hE6 hc6 _ => ?_))
      refine wp_bind (wp_touch (hI6.field (hI6.live List.mem_cons_self) hc6 (by simp [owns_tree])) ?_)
      exact wp_pure (Gives.some hI6 (hE5'.trans hE6) (kind_of_contents hc6))

/-! ### Items and lists -/

theorem itemSetName_keeps (k : Item) {i : Nat} (hI : Inv A s e) (ha : Anchor e s i) (hk : kindOf s i = some (.item k)) :
    wp A (itemSetName k i) s (fun _ s' => Inv A s' e ∧ Ext [i] s s') := by
  obtain ⟨o, ho, hok, hl⟩ := ha.look hI hk
  cases o with
  | item k' c key name =>
    simp only [Obj.kind, OKind.item.injEq] at hok
    subst hok
    unfold itemSetName
    obtain ⟨tc, tn⟩ := typed_item.1 (hI.typed hl ho)
    refine wp_bind (wp_look hl ho ?_)
    simp only [if_true]
    refine wp_bind (wp_store (o' := .item k' c key none) (e' := name.toList ++ e) hI hl ho rfl (by simp) (by counts)
      (typed_item.2 ⟨tc, KAll.none⟩) trivial trivial (fun _ => trivial) (fun s1 hI1 hE1 hc1 => ?_))
    refine wp_bind (freeOpt_drops A _ _ _ _ hI1 (tn.ext hE1) (fun s2 hI2 hE2 => ?_))
    refine wp_bind (wp_mono (malloc_gives hI2) (fun r s3 ⟨hI3, hE3, hk3⟩ => ?_))
    have hE13 : Ext [i] s s3 := (hE1.trans hE2.nil).trans hE3.nil
    have hl3 : 0 < refs s3 i := by
      refine (ha.ext hE13 (fun x hx => by simpa using hx)).live hI3 (fun x hx => List.mem_append_right _ hx)
    have hc3 : contents s3 i = some (.item k' c key none) :=
      hE3.content _ _ (by simp) (hE2.content _ _ (by simp) hc1)
    refine wp_bind (wp_store (o' := .item k' c key r) (e' := e) hI3 hl3 hc3 rfl (by simp) (by counts)
      (typed_item.2 ⟨hE13.kind _ _ tc, hk3⟩) trivial trivial (fun _ => trivial) (fun s4 hI4 hE4 _ => ?_))
    exact wp_pure ⟨hI4, hE13.trans hE4⟩
  | _ => cases hok

theorem itemKey_keeps (k : Item) {i : Nat} {Q : Nat → OState → Prop} (hl : 0 < refs s i) (hk : kindOf s i = some (.item k))
    (h : ∀ r, Q r s) : wp A (itemKey k i) s Q := by
  obtain ⟨o, ho, hok⟩ := contents_of_kind hk
  cases o with
  | item k' c key name =>
    simp only [Obj.kind, OKind.item.injEq] at hok
    subst hok
    unfold itemKey
    refine wp_bind (wp_look hl ho ?_)
    simp only [if_true]
    exact wp_pure (h _)
  | _ => cases hok

theorem elementsContain_keeps (k : Item) {x : Nat} : ∀ (els : List Nat) {Q : Bool → OState → Prop},
    0 < refs s x → kindOf s x = some (.item k) → (∀ y ∈ els, 0 < refs s y) → KAll s els (.item k) →
      (∀ r, Q r s) → wp A (elementsContain k x els) s Q := by
  intro els
  induction els with
  | nil => intro Q _ _ _ _ h; exact wp_pure (h _)
  | cons y ys ih =>
    intro Q hx hkx hy hky h
    unfold elementsContain
    refine wp_bind (itemKey_keeps k hx hkx (fun r1 => ?_))
    refine wp_bind (itemKey_keeps k (hy y List.mem_cons_self) (hky y List.mem_cons_self) (fun r2 => ?_))
    split
    · exact wp_pure (h _)
    · exact ih hx hkx (fun z hz => hy z (List.mem_cons_of_mem _ hz)) (fun z hz => hky z (List.mem_cons_of_mem _ hz)) h

/-- The fields of a list -/
theorem list_fields {k : Item} {l : Nat} (hI : Inv A s e) (ha : Anchor e s l) (hk : kindOf s l = some (.list k)) :
    ∃ c array room els, contents s l = some (.list k c array room els) ∧ 0 < refs s l ∧ kindOf s c = some .ctx ∧
      0 < refs s c ∧ KAll s array.toList .block ∧ KAll s els (.item k) ∧ (∀ y ∈ els, 0 < refs s y) ∧
      (array = none → els = [] ∧ room = 0) := by
  obtain ⟨o, ho, hok, hl⟩ := ha.look hI hk
  cases o with
  | list k' c array room els =>
    simp only [Obj.kind, OKind.list.injEq] at hok
    subst hok
    obtain ⟨tc, ta, te⟩ := typed_list.1 (hI.typed hl ho)
    exact ⟨c, array, room, els, ho, hl, tc, hI.field hl ho (by simp [owns_list]), ta, te,
      fun y hy => hI.field hl ho (by simp [owns_list, hy]), hI.sound hl ho⟩
  | _ => cases hok

theorem listClear_keeps (k : Item) {l : Nat} (hI : Inv A s e) (ha : Anchor e s l) (hk : kindOf s l = some (.list k)) :
    wp A (listClear k l) s (fun _ s' => Inv A s' e ∧ Ext [l] s s') := by
  obtain ⟨c, array, room, els, ho, hl, tc, hlc, ta, te, hle, hs⟩ := list_fields hI ha hk
  unfold listClear
  refine wp_bind (wp_look hl ho ?_)
  simp only [if_true]
  cases array with
  | none => exact wp_pure ⟨hI, Ext.refl _ _⟩
  | some a =>
    simp only
    refine wp_bind (wp_store (o' := .list k c none 0 []) (e' := (some a).toList ++ (els ++ e)) hI hl ho rfl (by simp)
      (by counts) (typed_list.2 ⟨tc, KAll.none, fun _ h => by cases h⟩) (fun _ => ⟨rfl, rfl⟩) trivial (fun _ => trivial)
      (fun s1 hI1 hE1 hc1 => ?_))
    exact elementsRelease_drops k hI1 (ta.ext hE1) (te.ext hE1) (fun h => by cases h)
      (fun s2 hI2 hE2 => ⟨hI2, hE1.trans hE2.nil⟩)

theorem listGrow_keeps (k : Item) {l c room : Nat} {array : Option Nat} {els : List Nat} (hI : Inv A s e)
    (ha : Anchor e s l) (ho : contents s l = some (.list k c array room els)) :
    wp A (listGrow k l) s (fun r s' => Inv A s' e ∧ Ext [l] s s' ∧
      ∃ array' room', contents s' l = some (.list k c array' room' els) ∧ (r = true → array' ≠ none)) := by
  obtain ⟨c, array, room, els, ho', hl, tc, hlc, ta, te, hle, hs⟩ := list_fields hI ha (kind_of_contents ho)
  rw [ho] at ho'
  cases ho'
  unfold listGrow
  refine wp_bind (wp_look hl ho ?_)
  simp only [if_true]
  refine wp_bind (wp_touch hlc ?_)
  refine wp_bind (wp_chance hI (fun r s1 hI1 hs1 => ?_))
  have hc1 : contents s1 l = some (.list k c array room els) := by rw [contents_eq hs1]; exact ho
  cases r with
  | true => exact wp_pure ⟨hI1, Ext.same hs1, array, room, hc1, fun h => by cases h⟩
  | false =>
    simp only [Bool.false_eq_true, if_false]
    refine wp_bind (wp_create (o := .block) (e := e) hI1 (fun f hf => by cases hf) trivial trivial
      (fun i s2 _ hI2 hE2 hc2 _ => ?_))
    have hE2' : Ext [] s s2 := (Ext.same hs1).trans hE2
    have hl2 : 0 < refs s2 l := (ha.nil hE2').live hI2 (fun x hx => List.mem_cons_of_mem _ hx)
    refine wp_bind (wp_store (o' := .list k c (some i) (room + _) els) (e' := array.toList ++ e) hI2 hl2
      (hE2.content _ _ (by simp) hc1) rfl (by simp) (by counts)
      (typed_list.2 ⟨hE2'.kind _ _ tc, KAll.some (kind_of_contents hc2), te.ext hE2'⟩) (fun h => by cases h) trivial (fun _ => trivial)
      (fun s3 hI3 hE3 hc3 => ?_))
    have hE3' : Ext [l] s s3 := hE2'.nil.trans hE3
    refine wp_bind (freeOpt_drops A _ _ _ _ hI3 (ta.ext hE3') (fun s4 hI4 hE4 => ?_))
    exact wp_pure ⟨hI4, hE3'.trans hE4.nil, some i, _, hE4.content _ _ (by simp) hc3, fun _ h => by cases h⟩

theorem listStore_keeps (k : Item) {l c room x : Nat} {array : Option Nat} {els : List Nat} (hI : Inv A s e)
    (ha : Anchor e s l) (ho : contents s l = some (.list k c array room els)) (hn : array ≠ none)
    (hx : 0 < refs s x) (hkx : kindOf s x = some (.item k)) :
    wp A (listStore k l x) s (fun _ s' => Inv A s' e ∧ Ext [l] s s' ∧
      contents s' l = some (.list k c array room (els ++ [x]))) := by
  obtain ⟨c, array, room, els, ho', hl, tc, hlc, ta, te, hle, hs⟩ := list_fields hI ha (kind_of_contents ho)
  rw [ho] at ho'
  cases ho'
  unfold listStore
  refine wp_bind (wp_incr hI hx hkx (by simp) (fun s1 hI1 hE1 => ?_))
  have hl1 : 0 < refs s1 l := (ha.nil hE1).live hI1 (fun x hx => List.mem_cons_of_mem _ hx)
  have ho1 := hE1.content _ _ (by simp) ho
  refine wp_bind (wp_look hl1 ho1 ?_)
  simp only [if_true]
  cases array with
  | none => exact absurd rfl hn
  | some a =>
    simp only
    refine wp_store (o' := .list k c (some a) room (els ++ [x])) (e' := e) hI1 hl1 ho1 rfl (by simp)
      (by counts) (typed_list.2 ⟨hE1.kind _ _ tc, ta.ext hE1, ?_⟩) (fun h => by cases h) trivial (fun _ => trivial)
      (fun s2 hI2 hE2 hc2 => ⟨hI2, hE1.nil.trans hE2, hc2⟩)
    intro y hy
    cases List.mem_append.1 hy with
    | inl hy => exact hE1.kind _ _ (te y hy)
    | inr hy => simp at hy; subst hy; exact hE1.kind _ _ hkx

theorem listAppend_keeps (k : Item) {l x : Nat} (hI : Inv A s e) (ha : Anchor e s l) (hk : kindOf s l = some (.list k))
    (hx : x ∈ e) (hkx : kindOf s x = some (.item k)) :
    wp A (listAppend k l x) s (fun _ s' => Inv A s' e ∧ Ext [l] s s') := by
  obtain ⟨c, array, room, els, ho, hl, tc, hlc, ta, te, hle, hs⟩ := list_fields hI ha hk
  unfold listAppend
  refine wp_bind (wp_look hl ho ?_)
  simp only [if_true]
  refine wp_bind (elementsContain_keeps k els (hI.live hx) hkx hle te (fun known => ?_))
  cases known with
  | true => exact wp_pure ⟨hI, Ext.refl _ _⟩
  | false =>
    simp only [Bool.false_eq_true, if_false]
    have key : ∀ r s1, Inv A s1 e → Ext [l] s s1 → (∃ array' room', contents s1 l = some (.list k c array' room' els) ∧
        (r = true → array' ≠ none)) →
        wp A (if r = true then do touch c; listStore k l x; pure true else pure false) s1
          (fun _ s' => Inv A s' e ∧ Ext [l] s s') := by
      intro r s1 hI1 hE1 ⟨array', room', hc1, hn⟩
      cases r with
      | false => exact wp_pure ⟨hI1, hE1⟩
      | true =>
        simp only [if_true]
        have ha1 := ha.ext hE1 (fun y hy => by simpa using hy)
        have hl1 : 0 < refs s1 l := ha1.live hI1 (fun _ h => h)
        refine wp_bind (wp_touch (hI1.field hl1 hc1 (by simp [owns_list])) ?_)
        refine wp_bind (wp_mono (listStore_keeps k hI1 ha1 hc1 (hn rfl) (hI1.live hx) (hE1.kind _ _ hkx))
          (fun _ s2 ⟨hI2, hE2, _⟩ => ?_))
        exact wp_pure ⟨hI2, hE1.trans hE2⟩
    split
    · exact wp_bind (wp_mono (listGrow_keeps k hI ha ho) (fun r s1 ⟨hI1, hE1, h⟩ => key r s1 hI1 hE1 h))
    · rename_i hlt
      refine wp_bind (wp_pure (key true s hI (Ext.refl _ _) ⟨array, room, ho, fun _ hc => hlt ?_⟩))
      obtain ⟨h1, h2⟩ := hs hc
      subst h1; subst h2
      exact Nat.le_refl _

theorem listGet_gives (k : Item) {l : Nat} (n : Nat) (hI : Inv A s e) (ha : Anchor e s l)
    (hk : kindOf s l = some (.list k)) : wp A (listGet k l n) s (Gives A e [] s (.item k)) := by
  obtain ⟨c, array, room, els, ho, hl, tc, hlc, ta, te, hle, hs⟩ := list_fields hI ha hk
  unfold listGet
  refine wp_bind (wp_look hl ho ?_)
  simp only [if_true]
  cases hx : els[n]? with
  | none => exact wp_pure (Gives.none hI (Ext.refl _ _))
  | some x =>
    simp only
    have hm : x ∈ els := List.mem_of_getElem? hx
    refine wp_bind (wp_incr hI (hle x hm) (te x hm) (by simp) (fun s1 hI1 hE1 => ?_))
    exact wp_pure (Gives.some hI1 hE1 (hE1.kind _ _ (te x hm)))

theorem listContainsKey_keeps (k : Item) {l : Nat} (key : Nat) (hI : Inv A s e) (ha : Anchor e s l)
    (hk : kindOf s l = some (.list k)) :
    wp A (listContainsKey k l key) s (fun _ s' => Inv A s' e ∧ Ext [] s s') := by
  obtain ⟨c, array, room, els, ho, hl, tc, hlc, ta, te, hle, hs⟩ := list_fields hI ha hk
  unfold listContainsKey
  refine wp_bind (wp_look hl ho ?_)
  simp only [if_true]
  refine wp_bind (wp_mono (itemNew_gives k key hI hlc tc) (fun r s1 ⟨hI1, hE1, hk1⟩ => ?_))
  cases r with
  | none => exact wp_pure ⟨hI1, hE1⟩
  | some x =>
    simp only
    have hkx := hk1 x (by simp)
    have hl1 : 0 < refs s1 l := (ha.nil hE1).live hI1 (fun x hx => List.mem_append_right _ hx)
    have ho1 := hE1.content _ _ (by simp) ho
    refine wp_bind (elementsContain_keeps k els (hI1.live (by simp)) hkx
      (fun y hy => hI1.field hl1 ho1 (by simp [owns_list, hy])) (te.ext hE1) (fun known => ?_))
    refine wp_bind (itemUnref_drops k A _ e _ _ hI1 hkx (fun s2 hI2 hE2 => ?_))
    exact wp_pure ⟨hI2, hE1.trans hE2⟩

theorem elementKeys_keeps (k : Item) : ∀ (els : List Nat) {Q : List (Nat × Nat) → OState → Prop},
    (∀ y ∈ els, 0 < refs s y) → KAll s els (.item k) → (∀ r, r.map (·.2) = els → Q r s) →
      wp A (elementKeys k els) s Q := by
  intro els
  induction els with
  | nil => intro Q _ _ h; exact wp_pure (h _ rfl)
  | cons y ys ih =>
    intro Q hy hky h
    unfold elementKeys
    refine wp_bind (itemKey_keeps k (hy y List.mem_cons_self) (hky y List.mem_cons_self) (fun r2 => ?_))
    refine wp_bind (ih (fun z hz => hy z (List.mem_cons_of_mem _ hz)) (fun z hz => hky z (List.mem_cons_of_mem _ hz))
      (fun r hr => ?_))
    exact wp_pure (h _ (by simp [hr]))

theorem listSort_keeps (k : Item) {l : Nat} (hI : Inv A s e) (ha : Anchor e s l) (hk : kindOf s l = some (.list k)) :
    wp A (listSort k l) s (fun _ s' => Inv A s' e ∧ Ext [l] s s') := by
  obtain ⟨c, array, room, els, ho, hl, tc, hlc, ta, te, hle, hs⟩ := list_fields hI ha hk
  unfold listSort
  refine wp_bind (wp_look hl ho ?_)
  simp only [if_true]
  refine wp_bind (elementKeys_keeps k els hle te (fun r hr => ?_))
  have hp : ((r.mergeSort (fun a b => decide (a.1 ≤ b.1))).map (·.2)).Perm els := by
    rw [← hr]
    exact (List.mergeSort_perm _ _).map _
  refine wp_store (e' := e) hI hl ho rfl (by simp) (fun j => ?_)
    (typed_list.2 ⟨tc, ta, fun y hy => te y (hp.mem_iff.1 hy)⟩) (fun hc => ?_) trivial (fun _ => trivial)
    (fun s2 hI2 hE2 hc2 => ⟨hI2, hE2⟩)
  · simp only [owns_list, List.count_cons, List.count_append, hp.count_eq]
  · obtain ⟨h1, h2⟩ := hs hc
    refine ⟨?_, h2⟩
    subst h1
    exact hp.eq_nil

end
end Loc.Objects
