import Verif.Spec.Objects
/-
Reference counts: rules for the operations of `Model/Objects.lean`.
-/
namespace Loc.Objects
open Spec

/-- The result of a function satisfies `Q`; faults are excluded, except NULL if `A`. -/
def wp {α : Type} (A : Prop) (m : OM α) (s : OState) (Q : α → OState → Prop) : Prop :=
  match m s with
  | .ok (a, s') => Q a s'
  | .error .null => A
  | .error _ => False

theorem wp_bind {α β : Type} {A : Prop} {m : OM α} {f : α → OM β} {s : OState} {Q : β → OState → Prop}
    (h : wp A m s (fun a s' => wp A (f a) s' Q)) : wp A (m >>= f) s Q := by
  unfold wp at *
  show match (StateT.bind m f) s with
    | .ok (a, s') => Q a s'
    | .error .null => A
    | .error _ => False
  unfold StateT.bind
  show match (m s >>= fun p => f p.1 p.2) with
    | .ok (a, s') => Q a s'
    | .error .null => A
    | .error _ => False
  cases hm : m s with
  | error e => rw [hm] at h; cases e <;> exact h
  | ok p => rw [hm] at h; exact h

theorem wp_pure {α : Type} {A : Prop} {a : α} {s : OState} {Q : α → OState → Prop} (h : Q a s) :
    wp A (pure a) s Q := h

theorem wp_null {α : Type} {A : Prop} {s : OState} {Q : α → OState → Prop} (h : A) :
    wp A (throw .null : OM α) s Q := h

theorem wp_mono {α : Type} {A : Prop} {m : OM α} {s : OState} {Q R : α → OState → Prop} (h : wp A m s Q)
    (hi : ∀ a s', Q a s' → R a s') : wp A m s R := by
  unfold wp at *
  split at h
  · exact hi _ _ h
  · exact h
  · exact h

/-! ### The accounts -/

theorem map_fst_pair {α β : Type} (b : β) (l : List α) : (l.map (fun a => (a, b))).map (·.1) = l := by
  rw [List.map_map]
  exact List.map_id' l

theorem owns_block : owns .block = [] := rfl
theorem owns_ctx : owns .ctx = [] := rfl
theorem owns_item (k : Item) (c key : Nat) (name : Option Nat) : owns (.item k c key name) = c :: name.toList := by
  simp only [owns, pointers, List.map_cons, map_fst_pair]
theorem owns_list (k : Item) (c : Nat) (array : Option Nat) (room : Nat) (els : List Nat) :
    owns (.list k c array room els) = c :: (array.toList ++ els) := by
  simp only [owns, pointers, List.map_cons, List.map_append, map_fst_pair]
theorem owns_pool (c : Nat) (blocks : Option Nat) (l n : Nat) : owns (.pool c blocks l n) = c :: blocks.toList := by
  simp only [owns, pointers, List.map_cons, map_fst_pair]
theorem owns_node (c : Nat) : owns (.node c) = [c] := rfl
theorem owns_tree (c : Nat) (root : Option Nat) : owns (.tree c root) = c :: root.toList := by
  simp only [owns, pointers, List.map_cons, map_fst_pair]
theorem owns_db (c : Nat) (data pool file : Option Nat) (a : List (Nat × Bool)) (cs : List (CStr × Bool)) :
    owns (.db c data pool file a cs) = c :: (data.toList ++ (pool.toList ++ file.toList)) := by
  simp only [owns, pointers, List.map_cons, List.map_append, map_fst_pair]
theorem owns_enum (c d : Nat) (m : EnumMode) (string countries asns visited stack : Option Nat) (i j : Nat) :
    owns (.enum c d m string countries asns visited stack i j) =
      c :: d :: (string.toList ++ (countries.toList ++ (asns.toList ++ (visited.toList ++ stack.toList)))) := by
  simp only [owns, pointers, List.map_cons, List.map_append, map_fst_pair]
theorem owns_writer (c : Nat) (pool networks asns countries key1 key2 : Option Nat) :
    owns (.writer c pool networks asns countries key1 key2) =
      c :: (pool.toList ++ (networks.toList ++ (asns.toList ++ (countries.toList ++ (key1.toList ++ key2.toList))))) := by
  simp only [owns, pointers, List.map_cons, List.map_append, map_fst_pair]
theorem owns_pyDb (d path : Option Nat) : owns (.pyDb d path) = d.toList ++ path.toList := by
  simp only [owns, pointers, List.map_append, map_fst_pair]
theorem owns_pyObj : owns .pyObj = [] := rfl

/-- The references to an object in the fields of others -/
def owned (l : List (Obj × Nat)) (i : Nat) : Nat :=
  (l.map (fun p => if p.2 = 0 then 0 else (owns p.1).count i)).sum

/-- What is true of the fields of complete objects -/
def Sound (A : Prop) : Obj → Prop
  | .list _ _ array room elements => array = none → elements = [] ∧ room = 0
  | .pool _ blocks _ size => blocks = none → A ∨ size = 0
  | .tree _ root => A ∨ root ≠ none
  | _ => True

/-- What is true of complete objects in addition -/
def Full : Obj → Prop
  | .db _ data pool _ _ _ => data ≠ none ∧ pool ≠ none
  | .writer _ pool networks asns countries _ _ => pool ≠ none ∧ networks ≠ none ∧ asns ≠ none ∧ countries ≠ none
  | .pyDb db _ => db ≠ none
  | _ => True

/-- An object is complete. -/
def Complete (s : OState) (i : Nat) : Prop := ∃ o, contents s i = some o ∧ Full o

/-- Databases in the fields of objects are complete. -/
def Refers (s : OState) : Obj → Prop
  | .enum _ d _ _ _ _ _ _ _ _ => Complete s d
  | .pyDb d _ => ∀ i ∈ d.toList, Complete s i
  | _ => True

/-- All references are accounted for: by the fields of objects, by the references `e`, and by references nobody knows of any
    more (only if `A`). -/
def Inv (A : Prop) (s : OState) (e : List Nat) : Prop :=
  ∃ lost : List Nat, (A ∨ lost = []) ∧ (A ∨ s.odd = []) ∧
    (∀ i, refs s i = owned s.objs i + (e.count i + lost.count i)) ∧
    (∀ (i : Nat) o k, s.objs[i]? = some (o, k) → k ≠ 0 →
      (∀ f ∈ pointers o, kindOf s f.1 = some f.2) ∧ Sound A o ∧ Refers s o) ∧
    (∀ (i k : Nat), s.objs[i]? = some (Obj.block, k) → k ≤ 1)

/-- Types stay, complete objects stay complete, and contents of objects not in `t` stay. -/
structure Ext (t : List Nat) (s s' : OState) : Prop where
  kind : ∀ i k, kindOf s i = some k → kindOf s' i = some k
  content : ∀ i o, i ∉ t → contents s i = some o → contents s' i = some o
  full : ∀ i, Complete s i → Complete s' i

theorem Ext.refl (t : List Nat) (s : OState) : Ext t s s := ⟨fun _ _ h => h, fun _ _ _ h => h, fun _ h => h⟩

theorem Ext.trans {t : List Nat} {s s' s'' : OState} (h : Ext t s s') (h' : Ext t s' s'') : Ext t s s'' :=
  ⟨fun i k hk => h'.kind i k (h.kind i k hk), fun i o hi ho => h'.content i o hi (h.content i o hi ho),
    fun i hi => h'.full i (h.full i hi)⟩

theorem Ext.weaken {t t' : List Nat} {s s' : OState} (h : Ext t s s') (hs : ∀ i ∈ t, i ∈ t') : Ext t' s s' :=
  ⟨h.kind, fun i o hi ho => h.content i o (fun hc => hi (hs i hc)) ho, h.full⟩

theorem Ext.nil {t : List Nat} {s s' : OState} (h : Ext [] s s') : Ext t s s' :=
  h.weaken (fun _ hi => by cases hi)

/-- Changes to an object that did not exist do not count. -/
theorem Ext.fresh {t : List Nat} {d : Nat} {s s' : OState} (h : Ext (d :: t) s s') (hd : contents s d = none) :
    Ext t s s' :=
  ⟨h.kind, fun i o hi ho => h.content i o (fun hc => by
    cases hc with
    | head => rw [hd] at ho; cases ho
    | tail _ hc => exact hi hc) ho, h.full⟩

theorem Refers.ext {t : List Nat} {s s' : OState} {o : Obj} (h : Refers s o) (hE : Ext t s s') : Refers s' o := by
  cases o with
  | enum => exact hE.full _ h
  | pyDb d path => exact fun i hi => hE.full _ (h i hi)
  | _ => trivial

theorem kind_of_contents {s : OState} {i : Nat} {o : Obj} (h : contents s i = some o) : kindOf s i = some o.kind := by
  unfold kindOf; rw [h]; rfl

theorem contents_of_kind {s : OState} {i : Nat} {k : OKind} (h : kindOf s i = some k) :
    ∃ o, contents s i = some o ∧ o.kind = k := by
  unfold kindOf at h
  cases hc : contents s i with
  | none => rw [hc] at h; cases h
  | some o => rw [hc] at h; exact ⟨o, rfl, by simpa using h⟩

theorem get_of_contents {s : OState} {i : Nat} {o : Obj} (h : contents s i = some o) :
    ∃ k, s.objs[i]? = some (o, k) ∧ refs s i = k := by
  unfold contents at h
  cases hc : s.objs[i]? with
  | none => rw [hc] at h; cases h
  | some p =>
    rw [hc] at h
    obtain ⟨o', k⟩ := p
    simp only [Option.map_some, Option.some.injEq] at h
    subst h
    exact ⟨k, rfl, by unfold refs; rw [hc]⟩

theorem contents_of_refs {s : OState} {i : Nat} (h : 0 < refs s i) : ∃ o, contents s i = some o := by
  unfold refs at h
  cases hc : s.objs[i]? with
  | none => rw [hc] at h; cases h
  | some p => exact ⟨p.1, by unfold contents; rw [hc]; rfl⟩

theorem sum_set {α : Type} (f : α → Nat) : ∀ (l : List α) (i : Nat) (a b : α), l[i]? = some a →
    ((l.set i b).map f).sum + f a = (l.map f).sum + f b := by
  intro l
  induction l with
  | nil => intro i a b h; simp at h
  | cons x xs ih =>
    intro i a b h
    cases i with
    | zero =>
      simp only [List.getElem?_cons_zero, Option.some.injEq] at h
      subst h
      simp only [List.set_cons_zero, List.map_cons, List.sum_cons]
      omega
    | succ i =>
      simp only [List.getElem?_cons_succ] at h
      simp only [List.set_cons_succ, List.map_cons, List.sum_cons]
      have := ih i a b h
      omega

theorem le_sum {α : Type} (f : α → Nat) : ∀ (l : List α) (i : Nat) (a : α), l[i]? = some a → f a ≤ (l.map f).sum := by
  intro l
  induction l with
  | nil => intro i a h; simp at h
  | cons x xs ih =>
    intro i a h
    cases i with
    | zero =>
      simp only [List.getElem?_cons_zero, Option.some.injEq] at h
      subst h
      simp only [List.map_cons, List.sum_cons]
      omega
    | succ i =>
      simp only [List.getElem?_cons_succ] at h
      simp only [List.map_cons, List.sum_cons]
      have := ih i a h
      omega

theorem Inv.congr {A : Prop} {s : OState} {e e' : List Nat} (h : Inv A s e)
    (hc : ∀ i, e.count i = e'.count i) : Inv A s e' := by
  obtain ⟨lost, h1, h2, h3, h4⟩ := h
  exact ⟨lost, h1, h2, fun i => by rw [h3 i, hc i], h4⟩

theorem Inv.perm {A : Prop} {s : OState} {e e' : List Nat} (h : Inv A s e) (hp : e.Perm e') :
    Inv A s e' := h.congr (fun _ => hp.count_eq _)

theorem Inv.weaken {A : Prop} {s : OState} {e : List Nat} (h : Inv A s e) : Inv True s e := by
  obtain ⟨lost, h1, h2, h3, h4, h5⟩ := h
  refine ⟨lost, .inl trivial, .inl trivial, h3, fun i o k hi hk => ?_, h5⟩
  obtain ⟨a, b, c⟩ := h4 i o k hi hk
  refine ⟨a, ?_, c⟩
  cases o with
  | list => exact b
  | pool => exact fun _ => .inl trivial
  | tree => exact .inl trivial
  | _ => trivial

/-- References may get lost if `A`. -/
theorem Inv.lose {A : Prop} {s : OState} {e : List Nat} {x : Nat} (hA : A) (h : Inv A s (x :: e)) :
    Inv A s e := by
  obtain ⟨lost, h1, h2, h3, h4⟩ := h
  refine ⟨x :: lost, .inl hA, h2, fun i => ?_, h4⟩
  rw [h3 i]
  simp only [List.count_cons]
  omega

theorem Inv.live {A : Prop} {s : OState} {e : List Nat} (h : Inv A s e) {i : Nat} (hi : i ∈ e) :
    0 < refs s i := by
  obtain ⟨lost, _, _, h3, _⟩ := h
  have := List.count_pos_iff.2 hi
  rw [h3 i]; omega

theorem Inv.field {A : Prop} {s : OState} {e : List Nat} (h : Inv A s e) {i j : Nat} {o : Obj}
    (hi : 0 < refs s i) (ho : contents s i = some o) (hj : j ∈ owns o) : 0 < refs s j := by
  obtain ⟨lost, _, _, h3, _⟩ := h
  obtain ⟨k, hk, hr⟩ := get_of_contents ho
  have h1 := le_sum (fun p : Obj × Nat => if p.2 = 0 then 0 else (owns p.1).count j) _ _ _ hk
  have hk0 : k ≠ 0 := by omega
  simp only [if_neg hk0] at h1
  have := List.count_pos_iff.2 hj
  rw [h3 j]; unfold owned; omega

theorem Inv.typed {A : Prop} {s : OState} {e : List Nat} (h : Inv A s e) {i : Nat} {o : Obj}
    (hi : 0 < refs s i) (ho : contents s i = some o) : ∀ f ∈ pointers o, kindOf s f.1 = some f.2 := by
  obtain ⟨lost, _, _, _, h4, _⟩ := h
  obtain ⟨k, hk, hr⟩ := get_of_contents ho
  exact (h4 i o k hk (by omega)).1

theorem Inv.sound {A : Prop} {s : OState} {e : List Nat} (h : Inv A s e) {i : Nat} {o : Obj}
    (hi : 0 < refs s i) (ho : contents s i = some o) : Sound A o := by
  obtain ⟨lost, _, _, _, h4, _⟩ := h
  obtain ⟨k, hk, hr⟩ := get_of_contents ho
  exact (h4 i o k hk (by omega)).2.1

theorem Inv.refers {A : Prop} {s : OState} {e : List Nat} (h : Inv A s e) {i : Nat} {o : Obj}
    (hi : 0 < refs s i) (ho : contents s i = some o) : Refers s o := by
  obtain ⟨lost, _, _, _, h4, _⟩ := h
  obtain ⟨k, hk, hr⟩ := get_of_contents ho
  exact (h4 i o k hk (by omega)).2.2

/-! ### Primitive operations -/

theorem wp_look {A : Prop} {s : OState} {i : Nat} {o : Obj} {Q : Obj → OState → Prop} (hi : 0 < refs s i)
    (ho : contents s i = some o) (h : Q o s) : wp A (look i) s Q := by
  obtain ⟨k, hk, hr⟩ := get_of_contents ho
  unfold wp look
  rw [hk]
  have : k ≠ 0 := by omega
  simp only [if_neg this]
  exact h

theorem wp_touch {A : Prop} {s : OState} {i : Nat} {Q : Unit → OState → Prop} (hi : 0 < refs s i) (h : Q () s) :
    wp A (touch i) s Q := by
  obtain ⟨o, ho⟩ := contents_of_refs hi
  unfold touch
  exact wp_bind (wp_look hi ho (wp_pure h))

/-- Nothing about objects changes. -/
theorem Ext.same {t : List Nat} {s s' : OState} (h : s'.objs = s.objs) : Ext t s s' := by
  constructor
  · intro i k hk; unfold kindOf contents at *; rw [h]; exact hk
  · intro i o _ ho; unfold contents at *; rw [h]; exact ho
  · intro i hi; unfold Complete contents at *; rw [h]; exact hi

theorem kindOf_set {s : OState} {i j : Nat} {o : Obj} {o' : Obj} {k k' : Nat} (h : s.objs[i]? = some (o, k))
    (hk : o'.kind = o.kind) : kindOf { s with objs := s.objs.set i (o', k') } j = kindOf s j := by
  unfold kindOf contents
  by_cases hij : i = j
  · subst hij
    have hlt : i < s.objs.length := (List.getElem?_eq_some_iff.1 h).1
    simp only [List.getElem?_set_self hlt, h, Option.map_some, hk]
  · simp only [List.getElem?_set_ne hij]

theorem contents_set_ne {s : OState} {i j : Nat} {o' : Obj} {k' : Nat} (hij : i ≠ j) :
    contents { s with objs := s.objs.set i (o', k') } j = contents s j := by
  unfold contents
  simp only [List.getElem?_set_ne hij]

theorem contents_set_self {s : OState} {i : Nat} {p : Obj × Nat} {o' : Obj} {k' : Nat} (h : s.objs[i]? = some p) :
    contents { s with objs := s.objs.set i (o', k') } i = some o' := by
  unfold contents
  have hlt : i < s.objs.length := (List.getElem?_eq_some_iff.1 h).1
  simp only [List.getElem?_set_self hlt, Option.map_some]

theorem refs_set_ne {s : OState} {i j : Nat} {p : Obj × Nat} (hij : i ≠ j) :
    refs { s with objs := s.objs.set i p } j = refs s j := by
  unfold refs
  simp only [List.getElem?_set_ne hij]

theorem refs_set_self {s : OState} {i : Nat} {p q : Obj × Nat} (h : s.objs[i]? = some p) :
    refs { s with objs := s.objs.set i q } i = q.2 := by
  unfold refs
  have hlt : i < s.objs.length := (List.getElem?_eq_some_iff.1 h).1
  simp only [List.getElem?_set_self hlt]

theorem ext_set {t : List Nat} {s : OState} {i : Nat} {o o' : Obj} {k k' : Nat} (h : s.objs[i]? = some (o, k))
    (hk : o'.kind = o.kind) (ht : i ∈ t ∨ o' = o) (hf : Full o → Full o') : Ext t s { s with objs := s.objs.set i (o', k') } := by
  constructor
  · intro j kd hj; rw [kindOf_set h hk]; exact hj
  · intro j x hj hx
    by_cases hij : i = j
    · subst hij
      cases ht with
      | inl ht => exact absurd ht hj
      | inr ht =>
        rw [contents_set_self h, ht]
        unfold contents at hx; rw [h] at hx; exact hx
    · rw [contents_set_ne hij]; exact hx
  · intro j ⟨x, hx, hxf⟩
    by_cases hij : i = j
    · subst hij
      refine ⟨o', contents_set_self h, hf ?_⟩
      unfold contents at hx; rw [h] at hx
      simp only [Option.map_some, Option.some.injEq] at hx
      rw [hx]; exact hxf
    · exact ⟨x, by rw [contents_set_ne hij]; exact hx, hxf⟩

/-- Changing one object, its counter and the references outside -/
theorem Inv.set {A : Prop} {s : OState} {e e' : List Nat} {i : Nat} {o o' : Obj} {k k' : Nat}
    (h : Inv A s e) (hi : s.objs[i]? = some (o, k)) (hkind : o'.kind = o.kind)
    (hbal : ∀ j, (if j = i then k' else refs s j) + (if k = 0 then 0 else (owns o).count j) + e.count j =
      refs s j + (if k' = 0 then 0 else (owns o').count j) + e'.count j)
    (htyped : k' ≠ 0 → (∀ f ∈ pointers o', kindOf s f.1 = some f.2) ∧ Sound A o' ∧ Refers s o') (hfull : Full o → Full o')
    (hblock : o' = .block → k' ≤ 1) : Inv A { s with objs := s.objs.set i (o', k') } e' := by
  obtain ⟨lost, h1, h2, h3, h4, h5⟩ := h
  have hE : Ext [i] s { s with objs := s.objs.set i (o', k') } := ext_set hi hkind (.inl (List.mem_singleton_self i)) hfull
  refine ⟨lost, h1, h2, fun j => ?_, fun j x kx hj hkx => ?_, fun j kx hj => ?_⟩
  · have hsum := sum_set (fun p : Obj × Nat => if p.2 = 0 then 0 else (owns p.1).count j) s.objs i (o, k) (o', k') hi
    simp only at hsum
    have h3j := h3 j
    have hb := hbal j
    unfold owned at *
    by_cases hji : j = i
    · subst hji
      rw [refs_set_self hi]
      simp only [if_true] at hb
      simp only
      omega
    · rw [refs_set_ne (Ne.symm hji)]
      simp only [if_neg hji] at hb
      simp only
      omega
  · by_cases hij : i = j
    · subst hij
      have hlt : i < s.objs.length := (List.getElem?_eq_some_iff.1 hi).1
      simp only [List.getElem?_set_self hlt, Option.some.injEq, Prod.mk.injEq] at hj
      obtain ⟨rfl, rfl⟩ := hj
      obtain ⟨ht, hs, hf⟩ := htyped hkx
      exact ⟨fun f hf => by rw [kindOf_set hi hkind]; exact ht f hf, hs, hf.ext hE⟩
    · simp only [List.getElem?_set_ne hij] at hj
      obtain ⟨ht, hs, hf⟩ := h4 j x kx hj hkx
      exact ⟨fun f hf => by rw [kindOf_set hi hkind]; exact ht f hf, hs, hf.ext hE⟩
  · by_cases hij : i = j
    · subst hij
      have hlt : i < s.objs.length := (List.getElem?_eq_some_iff.1 hi).1
      simp only [List.getElem?_set_self hlt, Option.some.injEq, Prod.mk.injEq] at hj
      obtain ⟨rfl, rfl⟩ := hj
      exact hblock rfl
    · simp only [List.getElem?_set_ne hij] at hj
      exact h5 j kx hj

theorem wp_incr {A : Prop} {s : OState} {e : List Nat} {i : Nat} {k : OKind} {Q : Unit → OState → Prop}
    (hI : Inv A s e) (hi : 0 < refs s i) (hk : kindOf s i = some k) (hb : k ≠ .block)
    (h : ∀ s', Inv A s' (i :: e) → Ext [] s s' → Q () s') : wp A (incr i) s Q := by
  obtain ⟨o, ho⟩ := contents_of_refs hi
  obtain ⟨n, hn, hr⟩ := get_of_contents ho
  have hn0 : n ≠ 0 := by omega
  unfold wp incr
  rw [hn]
  simp only [if_neg hn0]
  have hob : o ≠ .block := by
    intro hc
    rw [kind_of_contents ho, hc] at hk
    simp only [Option.some.injEq] at hk
    exact hb hk.symm
  refine h _ (hI.set hn rfl (fun j => ?_) (fun _ => ?_) (fun h => h) (fun hc => absurd hc hob))
    (ext_set hn rfl (.inr rfl) (fun h => h))
  · have h1 : n + 1 ≠ 0 := by omega
    simp only [if_neg hn0, if_neg h1, List.count_cons]
    by_cases hji : j = i
    · subst hji; simp; omega
    · have : (i == j) = false := by simp [Ne.symm hji]
      simp only [if_neg hji, this]
      simp
  · obtain ⟨_, _, _, _, h4, _⟩ := hI
    exact h4 i o n hn hn0

theorem wp_store {A : Prop} {s : OState} {e e' : List Nat} {i : Nat} {o o' : Obj} {Q : Unit → OState → Prop}
    (hI : Inv A s e) (hi : 0 < refs s i) (ho : contents s i = some o) (hkind : o'.kind = o.kind) (hnb : o' ≠ .block)
    (hbal : ∀ j, (owns o').count j + e'.count j = (owns o).count j + e.count j)
    (ht : ∀ f ∈ pointers o', kindOf s f.1 = some f.2) (hs : Sound A o') (hf : Refers s o') (hfull : Full o → Full o')
    (h : ∀ s', Inv A s' e' → Ext [i] s s' → contents s' i = some o' → Q () s') : wp A (store i o') s Q := by
  obtain ⟨n, hn, hr⟩ := get_of_contents ho
  have hn0 : n ≠ 0 := by omega
  unfold wp store
  rw [hn]
  simp only [if_neg hn0]
  refine h _ (hI.set hn hkind (fun j => ?_) (fun _ => ⟨ht, hs, hf⟩) hfull (fun hc => absurd hc hnb))
    (ext_set hn hkind (.inl (List.mem_singleton_self i)) hfull) (contents_set_self hn)
  have hb := hbal j
  by_cases hji : j = i
  · subst hji
    simp only [if_true, if_neg hn0]
    omega
  · simp only [if_neg hji, if_neg hn0]
    omega

theorem wp_create {A : Prop} {s : OState} {e : List Nat} {o : Obj} {Q : Nat → OState → Prop}
    (hI : Inv A s (owns o ++ e)) (ht : ∀ f ∈ pointers o, kindOf s f.1 = some f.2) (hs : Sound A o)
    (hf : Refers s o)
    (h : ∀ i s', i = s.objs.length → Inv A s' (i :: e) → Ext [] s s' → contents s' i = some o → contents s i = none →
      Q i s') : wp A (create o) s Q := by
  unfold wp create
  have hnone : s.objs[s.objs.length]? = none := List.getElem?_eq_none (Nat.le_refl _)
  have hself : (s.objs ++ [(o, 1)])[s.objs.length]? = some (o, 1) := by
    rw [List.getElem?_append_right (Nat.le_refl _)]; simp
  have hext : Ext [] s { s with objs := s.objs ++ [(o, 1)] } := by
    have hget : ∀ (j : Nat) p, s.objs[j]? = some p → (s.objs ++ [(o, 1)])[j]? = some p := by
      intro j p hj
      rw [List.getElem?_append_left (List.getElem?_eq_some_iff.1 hj).1]; exact hj
    constructor
    · intro j k hk
      obtain ⟨x, hx, hxk⟩ := contents_of_kind hk
      obtain ⟨n, hn, _⟩ := get_of_contents hx
      unfold kindOf contents
      simp only [hget j _ hn, Option.map_some, hxk]
    · intro j x _ hx
      obtain ⟨n, hn, _⟩ := get_of_contents hx
      unfold contents
      simp only [hget j _ hn, Option.map_some]
    · intro j ⟨x, hx, hxf⟩
      obtain ⟨n, hn, _⟩ := get_of_contents hx
      refine ⟨x, ?_, hxf⟩
      unfold contents
      simp only [hget j _ hn, Option.map_some]
  refine h _ _ rfl ?_ hext (by unfold contents; simp only [hself, Option.map_some]) (by unfold contents; rw [hnone]; rfl)
  obtain ⟨lost, h1, h2, h3, h4, h5⟩ := hI
  have hcount : ∀ j, (owns o).count j + (e.count j + lost.count j) ≤ refs s j := by
    intro j
    have := h3 j
    rw [List.count_append] at this
    omega
  refine ⟨lost, h1, h2, fun j => ?_, fun j x kx hj hkx => ?_, fun j kx hj => ?_⟩
  · have h3j := h3 j
    rw [List.count_append] at h3j
    unfold owned at *
    simp only [List.map_append, List.map_cons, List.map_nil, List.sum_append, List.sum_cons, List.sum_nil]
    rw [List.count_cons]
    by_cases hji : j = s.objs.length
    · subst hji
      have hr : refs s s.objs.length = 0 := by unfold refs; rw [hnone]
      have hr' : refs { s with objs := s.objs ++ [(o, 1)] } s.objs.length = 1 := by unfold refs; simp only [hself]
      rw [hr']
      simp only [beq_self_eq_true, if_true]
      have : (1 : Nat) ≠ 0 := by decide
      simp only [if_neg this]
      omega
    · have hne : (s.objs.length == j) = false := by simp [Ne.symm hji]
      have hr' : refs { s with objs := s.objs ++ [(o, 1)] } j = refs s j := by
        unfold refs
        by_cases hlt : j < s.objs.length
        · simp only [List.getElem?_append_left hlt]
        · have hj1 : s.objs[j]? = none := List.getElem?_eq_none (by omega)
          have hj2 : (s.objs ++ [(o, 1)])[j]? = none := List.getElem?_eq_none (by simp; omega)
          simp only [hj1, hj2]
      rw [hr', hne]
      have : (1 : Nat) ≠ 0 := by decide
      simp only [if_neg this]
      simp
      omega
  · by_cases hlt : j < s.objs.length
    · simp only [List.getElem?_append_left hlt] at hj
      obtain ⟨ht', hs', hf'⟩ := h4 j x kx hj hkx
      exact ⟨fun f hf => hext.kind _ _ (ht' f hf), hs', hf'.ext hext⟩
    · have hje : j = s.objs.length := by
        have := (List.getElem?_eq_some_iff.1 hj).1
        simp at this; omega
      subst hje
      simp only [hself, Option.some.injEq, Prod.mk.injEq] at hj
      obtain ⟨rfl, rfl⟩ := hj
      exact ⟨fun f hf => hext.kind _ _ (ht f hf), hs, hf.ext hext⟩
  · by_cases hlt : j < s.objs.length
    · simp only [List.getElem?_append_left hlt] at hj
      exact h5 j kx hj
    · have hje : j = s.objs.length := by
        have := (List.getElem?_eq_some_iff.1 hj).1
        simp at this; omega
      subst hje
      simp only [hself, Option.some.injEq, Prod.mk.injEq] at hj
      omega

theorem wp_decr {A : Prop} {s : OState} {e : List Nat} {i : Nat} {o : Obj} {Q : Bool → OState → Prop}
    (hI : Inv A s (i :: e)) (ho : contents s i = some o)
    (hmore : ∀ s', Inv A s' e → Ext [] s s' → Q false s')
    (hlast : ∀ s', Inv A s' (owns o ++ e) → Ext [] s s' → Q true s') : wp A (decr i) s Q := by
  have hi := hI.live List.mem_cons_self
  obtain ⟨n, hn, hr⟩ := get_of_contents ho
  have hn0 : n ≠ 0 := by omega
  have htyped : (∀ f ∈ pointers o, kindOf s f.1 = some f.2) ∧ Sound A o ∧ Refers s o := by
    obtain ⟨_, _, _, _, h4, _⟩ := hI
    exact h4 i o n hn hn0
  have hblock : o = .block → n - 1 ≤ 1 := by
    intro hc; subst hc
    obtain ⟨_, _, _, _, _, h5⟩ := hI
    have := h5 i n hn
    omega
  unfold wp decr
  rw [hn]
  simp only [if_neg hn0]
  by_cases h1 : n = 1
  · subst h1
    have : ((1 : Nat) == 1) = true := rfl
    simp only [this]
    refine hlast _ (hI.set hn rfl (fun j => ?_) (fun hc => absurd rfl hc) (fun h => h) hblock)
      (ext_set hn rfl (.inr rfl) (fun h => h))
    rw [List.count_append, List.count_cons]
    by_cases hji : j = i
    · subst hji; simp; omega
    · have : (i == j) = false := by simp [Ne.symm hji]
      simp only [if_neg hji, this]
      simp; omega
  · have : (n == 1) = false := by simp [h1]
    simp only [this]
    refine hmore _ (hI.set hn rfl (fun j => ?_) (fun _ => htyped) (fun h => h) hblock)
      (ext_set hn rfl (.inr rfl) (fun h => h))
    have hn1 : n - 1 ≠ 0 := by omega
    rw [List.count_cons]
    by_cases hji : j = i
    · subst hji; simp [hn0, hn1]; omega
    · have : (i == j) = false := by simp [Ne.symm hji]
      simp only [if_neg hji, this, if_neg hn0, if_neg hn1]
      simp

theorem wp_chance {A : Prop} {s : OState} {e : List Nat} {Q : Bool → OState → Prop} (hI : Inv A s e)
    (h : ∀ r s', Inv A s' e → s'.objs = s.objs → Q r s') : wp A chance s Q := by
  unfold wp chance
  cases hf : s.fails with
  | nil => simp only; exact h _ _ hI rfl
  | cons x xs =>
    simp only
    refine h _ _ ?_ rfl
    obtain ⟨lost, h1, h2, h3, h4, h5⟩ := hI
    exact ⟨lost, h1, h2, h3, h4, h5⟩

theorem wp_oddly {A : Prop} {s : OState} {e : List Nat} {Q : Bool → OState → Prop} (hI : Inv A s e)
    (h : ∀ r s', (r = true → A) → Inv A s' e → s'.objs = s.objs → Q r s') : wp A oddly s Q := by
  unfold wp oddly
  cases hf : s.odd with
  | nil => simp only; exact h _ _ (fun hc => by cases hc) hI rfl
  | cons x xs =>
    simp only
    obtain ⟨lost, h1, h2, h3, h4, h5⟩ := hI
    have hA : A := by
      cases h2 with
      | inl h2 => exact h2
      | inr h2 => rw [hf] at h2; cases h2
    exact h _ _ (fun _ => hA) ⟨lost, h1, .inl hA, h3, h4, h5⟩ rfl

/-! ### Releasing objects -/

/-- A function gives back one reference to an object of some type. -/
def Drops (f : Nat → OM Unit) (k : OKind) : Prop :=
  ∀ (A : Prop) (s : OState) (e : List Nat) (i : Nat) (Q : Unit → OState → Prop),
    Inv A s (i :: e) → kindOf s i = some k → (∀ s', Inv A s' e → Ext [] s s' → Q () s') → wp A (f i) s Q

/-- The same for pointers that may be NULL -/
def DropsOpt (f : Option Nat → OM Unit) (k : OKind) : Prop :=
  ∀ (A : Prop) (s : OState) (e : List Nat) (p : Option Nat) (Q : Unit → OState → Prop),
    Inv A s (p.toList ++ e) → (∀ i ∈ p.toList, kindOf s i = some k) →
      (∀ s', Inv A s' e → Ext [] s s' → Q () s') → wp A (f p) s Q

theorem freeBlock_drops : Drops freeBlock .block := by
  intro A s e i Q hI hk h
  obtain ⟨o, ho, hok⟩ := contents_of_kind hk
  cases o with
  | block =>
    unfold freeBlock
    refine wp_bind (wp_look (hI.live List.mem_cons_self) ho ?_)
    exact wp_bind (wp_decr hI ho (fun s' hI' hE => wp_pure (h s' hI' hE)) (fun s' hI' hE => wp_pure (h s' hI' hE)))
  | _ => cases hok

theorem ctxUnref_drops : Drops ctxUnref .ctx := by
  intro A s e i Q hI hk h
  obtain ⟨o, ho, hok⟩ := contents_of_kind hk
  cases o with
  | ctx =>
    unfold ctxUnref
    refine wp_bind (wp_look (hI.live List.mem_cons_self) ho ?_)
    exact wp_bind (wp_decr hI ho (fun s' hI' hE => wp_pure (h s' hI' hE)) (fun s' hI' hE => wp_pure (h s' hI' hE)))
  | _ => cases hok

theorem dropsOpt_of {f : Nat → OM Unit} {g : Option Nat → OM Unit} {k : OKind} (hf : Drops f k)
    (h0 : g none = pure ()) (h1 : ∀ i, g (some i) = f i) : DropsOpt g k := by
  intro A s e p Q hI hk h
  cases p with
  | none => rw [h0]; exact wp_pure (h s hI (Ext.refl _ _))
  | some i => rw [h1]; exact hf A s e i Q hI (hk i (by simp)) h

theorem freeOpt_drops : DropsOpt freeOpt .block := dropsOpt_of freeBlock_drops rfl (fun _ => rfl)

theorem itemUnref_drops (k : Item) : Drops (itemUnref k) (.item k) := by
  intro A s e i Q hI hk h
  obtain ⟨o, ho, hok⟩ := contents_of_kind hk
  cases o with
  | item k' c key name =>
    simp only [Obj.kind, OKind.item.injEq] at hok
    subst hok
    unfold itemUnref
    have hty := hI.typed (hI.live List.mem_cons_self) ho
    refine wp_bind (wp_look (hI.live List.mem_cons_self) ho ?_)
    simp only [if_true]
    refine wp_bind (wp_decr hI ho (fun s1 hI1 hE1 => ?_) (fun s1 hI1 hE1 => ?_))
    · exact wp_pure (h _ hI1 hE1)
    · simp only [if_true]
      have hI1' : Inv A s1 (name.toList ++ (c :: e)) := hI1.congr (fun j => by
        simp only [owns_item, List.count_append, List.count_cons]; omega)
      refine wp_bind (wp_touch (hI1'.live (by simp)) ?_)
      refine wp_bind (freeOpt_drops A _ _ _ _ hI1' (fun j hj => hE1.kind _ _ (hty (j, .block) (by simp [pointers]; simpa using hj)))
        (fun s2 hI2 hE2 => ?_))
      exact ctxUnref_drops A _ _ _ _ hI2 (hE2.kind _ _ (hE1.kind _ _ (hty (c, .ctx) (by simp [pointers]))))
        (fun s3 hI3 hE3 => h s3 hI3 ((hE1.trans hE2).trans hE3))
  | _ => cases hok

/-- Pointers to objects of one type -/
def KAll (s : OState) (l : List Nat) (k : OKind) : Prop := ∀ i ∈ l, kindOf s i = some k

theorem KAll.ext {t : List Nat} {s s' : OState} {l : List Nat} {k : OKind} (h : KAll s l k) (hE : Ext t s s') : KAll s' l k :=
  fun i hi => hE.kind _ _ (h i hi)

theorem KAll.none {s : OState} {k : OKind} : KAll s (none : Option Nat).toList k := fun _ h => by cases h

theorem KAll.some {s : OState} {i : Nat} {k : OKind} (h : kindOf s i = some k) : KAll s (some i : Option Nat).toList k :=
  fun j hj => by simp at hj; subst hj; exact h

theorem forall_pair {s : OState} {l : List Nat} {k : OKind} :
    (∀ f ∈ l.map (fun x => (x, k)), kindOf s f.1 = some f.2) ↔ KAll s l k := by
  unfold KAll
  simp

theorem typed_item {s : OState} {k : Item} {c key : Nat} {name : Option Nat} :
    (∀ f ∈ pointers (.item k c key name), kindOf s f.1 = some f.2) ↔
      kindOf s c = some .ctx ∧ KAll s name.toList .block := by
  simp only [pointers, List.forall_mem_cons, forall_pair]

theorem typed_list {s : OState} {k : Item} {c room : Nat} {array : Option Nat} {els : List Nat} :
    (∀ f ∈ pointers (.list k c array room els), kindOf s f.1 = some f.2) ↔
      kindOf s c = some .ctx ∧ KAll s array.toList .block ∧ KAll s els (.item k) := by
  simp only [pointers, List.forall_mem_cons, List.forall_mem_append, forall_pair]

theorem typed_pool {s : OState} {c l n : Nat} {blocks : Option Nat} :
    (∀ f ∈ pointers (.pool c blocks l n), kindOf s f.1 = some f.2) ↔
      kindOf s c = some .ctx ∧ KAll s blocks.toList .block := by
  simp only [pointers, List.forall_mem_cons, forall_pair]

theorem typed_node {s : OState} {c : Nat} :
    (∀ f ∈ pointers (.node c), kindOf s f.1 = some f.2) ↔ kindOf s c = some .ctx := by
  simp only [pointers, List.forall_mem_cons]; simp

theorem typed_tree {s : OState} {c : Nat} {root : Option Nat} :
    (∀ f ∈ pointers (.tree c root), kindOf s f.1 = some f.2) ↔ kindOf s c = some .ctx ∧ KAll s root.toList .node := by
  simp only [pointers, List.forall_mem_cons, forall_pair]

theorem typed_db {s : OState} {c : Nat} {data pool file : Option Nat} {a : List (Nat × Bool)} {cs : List (CStr × Bool)} :
    (∀ f ∈ pointers (.db c data pool file a cs), kindOf s f.1 = some f.2) ↔
      kindOf s c = some .ctx ∧ KAll s data.toList .block ∧ KAll s pool.toList .pool ∧ KAll s file.toList .block := by
  simp only [pointers, List.forall_mem_cons, List.forall_mem_append, forall_pair]

theorem typed_enum {s : OState} {c d : Nat} {m : EnumMode} {string countries asns visited stack : Option Nat} {i j : Nat} :
    (∀ f ∈ pointers (.enum c d m string countries asns visited stack i j), kindOf s f.1 = some f.2) ↔
      kindOf s c = some .ctx ∧ kindOf s d = some .db ∧ KAll s string.toList .block ∧
        KAll s countries.toList (.list .country) ∧ KAll s asns.toList (.list .as) ∧ KAll s visited.toList .block ∧
        KAll s stack.toList (.list .network) := by
  simp only [pointers, List.forall_mem_cons, List.forall_mem_append, forall_pair]

theorem typed_writer {s : OState} {c : Nat} {pool networks asns countries key1 key2 : Option Nat} :
    (∀ f ∈ pointers (.writer c pool networks asns countries key1 key2), kindOf s f.1 = some f.2) ↔
      kindOf s c = some .ctx ∧ KAll s pool.toList .pool ∧ KAll s networks.toList .tree ∧
        KAll s asns.toList (.list .as) ∧ KAll s countries.toList (.list .country) ∧ KAll s key1.toList .block ∧
        KAll s key2.toList .block := by
  simp only [pointers, List.forall_mem_cons, List.forall_mem_append, forall_pair]

theorem typed_pyDb {s : OState} {d path : Option Nat} :
    (∀ f ∈ pointers (.pyDb d path), kindOf s f.1 = some f.2) ↔ KAll s d.toList .db ∧ KAll s path.toList .block := by
  simp only [pointers, List.forall_mem_append, forall_pair]

/-- Comparing multisets -/
macro "counts" : tactic => `(tactic| (intro j; simp only [owns_block, owns_ctx, owns_item, owns_list, owns_pool, owns_node,
  owns_tree, owns_db, owns_enum, owns_writer, owns_pyDb, owns_pyObj, Option.toList_none, Option.toList_some,
  List.count_append, List.count_cons, List.count_nil] <;> omega))

theorem itemsUnref_drops (k : Item) : ∀ (xs : List Nat) (A : Prop) (s : OState) (e : List Nat)
    (Q : Unit → OState → Prop), Inv A s (xs ++ e) → KAll s xs (.item k) →
      (∀ s', Inv A s' e → Ext [] s s' → Q () s') → wp A (itemsUnref k xs) s Q := by
  intro xs
  induction xs with
  | nil => intro A s e Q hI _ h; exact wp_pure (h s hI (Ext.refl _ _))
  | cons x xs ih =>
    intro A s e Q hI hk h
    unfold itemsUnref
    refine wp_bind (itemUnref_drops k A s (xs ++ e) x _ hI (hk x List.mem_cons_self) (fun s1 hI1 hE1 => ?_))
    exact ih A s1 e Q hI1 (fun i hi => hE1.kind _ _ (hk i (List.mem_cons_of_mem _ hi)))
      (fun s2 hI2 hE2 => h s2 hI2 (hE1.trans hE2))

theorem elementsRelease_drops (k : Item) {A : Prop} {s : OState} {e : List Nat} {array : Option Nat}
    {els : List Nat} {Q : Unit → OState → Prop} (hI : Inv A s (array.toList ++ (els ++ e)))
    (ha : KAll s array.toList .block) (hk : KAll s els (.item k)) (hn : array = none → els = [])
    (h : ∀ s', Inv A s' e → Ext [] s s' → Q () s') : wp A (elementsRelease k array els) s Q := by
  cases array with
  | none =>
    have := hn rfl
    subst this
    exact wp_pure (h s hI (Ext.refl _ _))
  | some a =>
    show wp A (itemsUnref k els >>= fun _ => freeBlock a) s Q
    refine wp_bind (itemsUnref_drops k els A s (a :: e) _ (hI.congr (by counts)) hk (fun s1 hI1 hE1 => ?_))
    exact freeBlock_drops A s1 e a Q hI1 (hE1.kind _ _ (ha a (by simp))) (fun s2 hI2 hE2 => h s2 hI2 (hE1.trans hE2))

theorem listUnref_drops (k : Item) : Drops (listUnref k) (.list k) := by
  intro A s e i Q hI hk h
  obtain ⟨o, ho, hok⟩ := contents_of_kind hk
  cases o with
  | list k' c array room els =>
    simp only [Obj.kind, OKind.list.injEq] at hok
    subst hok
    unfold listUnref
    have hl := hI.live List.mem_cons_self
    obtain ⟨tc, ta, te⟩ := typed_list.1 (hI.typed hl ho)
    have hs : array = none → els = [] ∧ room = 0 := hI.sound hl ho
    refine wp_bind (wp_look hl ho ?_)
    simp only [if_true]
    refine wp_bind (wp_decr hI ho (fun s1 hI1 hE1 => wp_pure (h _ hI1 hE1)) (fun s1 hI1 hE1 => ?_))
    simp only [if_true]
    rw [owns_list] at hI1
    refine wp_bind (wp_touch (hI1.live (by simp)) ?_)
    refine wp_bind (elementsRelease_drops k' (e := c :: e) (hI1.congr (by counts)) (ta.ext hE1) (te.ext hE1)
      (fun hc => (hs hc).1) (fun s2 hI2 hE2 => ?_))
    exact ctxUnref_drops A _ _ _ _ hI2 (hE2.kind _ _ (hE1.kind _ _ tc))
      (fun s3 hI3 hE3 => h s3 hI3 ((hE1.trans hE2).trans hE3))
  | _ => cases hok

theorem listUnrefOpt_drops (k : Item) : DropsOpt (listUnrefOpt k) (.list k) :=
  dropsOpt_of (listUnref_drops k) rfl (fun _ => rfl)

theorem poolUnref_drops : Drops poolUnref .pool := by
  intro A s e i Q hI hk h
  obtain ⟨o, ho, hok⟩ := contents_of_kind hk
  cases o with
  | pool c blocks l n =>
    unfold poolUnref
    have hl := hI.live List.mem_cons_self
    obtain ⟨tc, tb⟩ := typed_pool.1 (hI.typed hl ho)
    refine wp_bind (wp_look hl ho ?_)
    refine wp_bind (wp_decr hI ho (fun s1 hI1 hE1 => wp_pure (h _ hI1 hE1)) (fun s1 hI1 hE1 => ?_))
    simp only [if_true]
    rw [owns_pool] at hI1
    refine wp_bind (wp_touch (hI1.live (by simp)) ?_)
    refine wp_bind (freeOpt_drops A _ (c :: e) _ _ (hI1.congr (by counts)) (tb.ext hE1) (fun s2 hI2 hE2 => ?_))
    exact ctxUnref_drops A _ _ _ _ hI2 (hE2.kind _ _ (hE1.kind _ _ tc))
      (fun s3 hI3 hE3 => h s3 hI3 ((hE1.trans hE2).trans hE3))
  | _ => cases hok

theorem poolUnrefOpt_drops : DropsOpt poolUnrefOpt .pool := dropsOpt_of poolUnref_drops rfl (fun _ => rfl)

theorem nodeUnref_drops : Drops nodeUnref .node := by
  intro A s e i Q hI hk h
  obtain ⟨o, ho, hok⟩ := contents_of_kind hk
  cases o with
  | node c =>
    unfold nodeUnref
    have hl := hI.live List.mem_cons_self
    have tc := typed_node.1 (hI.typed hl ho)
    refine wp_bind (wp_look hl ho ?_)
    refine wp_bind (wp_decr hI ho (fun s1 hI1 hE1 => wp_pure (h _ hI1 hE1)) (fun s1 hI1 hE1 => ?_))
    simp only [if_true]
    rw [owns_node] at hI1
    refine wp_bind (wp_touch (hI1.live (by simp)) ?_)
    exact ctxUnref_drops A _ _ _ _ hI1 (hE1.kind _ _ tc) (fun s3 hI3 hE3 => h s3 hI3 (hE1.trans hE3))
  | _ => cases hok

theorem treeUnref_drops : Drops treeUnref .tree := by
  intro A s e i Q hI hk h
  obtain ⟨o, ho, hok⟩ := contents_of_kind hk
  cases o with
  | tree c root =>
    unfold treeUnref
    have hl := hI.live List.mem_cons_self
    obtain ⟨tc, tr⟩ := typed_tree.1 (hI.typed hl ho)
    have hs : A ∨ root ≠ none := hI.sound hl ho
    refine wp_bind (wp_look hl ho ?_)
    refine wp_bind (wp_decr hI ho (fun s1 hI1 hE1 => wp_pure (h _ hI1 hE1)) (fun s1 hI1 hE1 => ?_))
    simp only [if_true]
    rw [owns_tree] at hI1
    refine wp_bind (wp_touch (hI1.live (by simp)) ?_)
    cases root with
    | none => exact wp_null (hs.resolve_right (fun hc => hc rfl))
    | some r =>
      show wp A (nodeUnref r >>= fun _ => ctxUnref c) s1 Q
      refine wp_bind (nodeUnref_drops A _ (c :: e) _ _ (hI1.congr (by counts)) (hE1.kind _ _ (tr r (by simp)))
        (fun s2 hI2 hE2 => ?_))
      exact ctxUnref_drops A _ _ _ _ hI2 (hE2.kind _ _ (hE1.kind _ _ tc))
        (fun s3 hI3 hE3 => h s3 hI3 ((hE1.trans hE2).trans hE3))
  | _ => cases hok

theorem treeUnrefOpt_drops : DropsOpt treeUnrefOpt .tree := dropsOpt_of treeUnref_drops rfl (fun _ => rfl)

theorem dbUnref_drops : Drops dbUnref .db := by
  intro A s e i Q hI hk h
  obtain ⟨o, ho, hok⟩ := contents_of_kind hk
  cases o with
  | db c data pool file a cs =>
    unfold dbUnref
    have hl := hI.live List.mem_cons_self
    obtain ⟨tc, td, tp, tf⟩ := typed_db.1 (hI.typed hl ho)
    refine wp_bind (wp_look hl ho ?_)
    refine wp_bind (wp_decr hI ho (fun s1 hI1 hE1 => wp_pure (h _ hI1 hE1)) (fun s1 hI1 hE1 => ?_))
    simp only [if_true]
    rw [owns_db] at hI1
    refine wp_bind (wp_touch (hI1.live (by simp)) ?_)
    refine wp_bind (freeOpt_drops A _ (pool.toList ++ (file.toList ++ (c :: e))) _ _ (hI1.congr (by counts)) (td.ext hE1)
      (fun s2 hI2 hE2 => ?_))
    have hE := hE1.trans hE2
    refine wp_bind (poolUnrefOpt_drops A _ _ _ _ hI2 (tp.ext hE) (fun s3 hI3 hE3 => ?_))
    have hE := hE.trans hE3
    refine wp_bind (freeOpt_drops A _ _ _ _ hI3 (tf.ext hE) (fun s4 hI4 hE4 => ?_))
    have hE := hE.trans hE4
    exact ctxUnref_drops A _ _ _ _ hI4 (hE.kind _ _ tc) (fun s5 hI5 hE5 => h s5 hI5 (hE.trans hE5))
  | _ => cases hok

theorem dbUnrefOpt_drops : DropsOpt dbUnrefOpt .db := dropsOpt_of dbUnref_drops rfl (fun _ => rfl)

theorem enumUnref_drops : Drops enumUnref .enum := by
  intro A s e i Q hI hk h
  obtain ⟨o, ho, hok⟩ := contents_of_kind hk
  cases o with
  | enum c d m string countries asns visited stack i1 j1 =>
    unfold enumUnref
    have hl := hI.live List.mem_cons_self
    obtain ⟨tc, td, ts, tcs, ta, tv, tst⟩ := typed_enum.1 (hI.typed hl ho)
    refine wp_bind (wp_look hl ho ?_)
    refine wp_bind (wp_decr hI ho (fun s1 hI1 hE1 => wp_pure (h _ hI1 hE1)) (fun s1 hI1 hE1 => ?_))
    simp only [if_true]
    rw [owns_enum] at hI1
    refine wp_bind (wp_touch (hI1.live (by simp)) ?_)
    refine wp_bind (dbUnref_drops A _ (c :: (string.toList ++ (countries.toList ++ (asns.toList ++ (visited.toList ++
      (stack.toList ++ e)))))) _ _ (hI1.congr (by counts)) (hE1.kind _ _ td) (fun s2 hI2 hE2 => ?_))
    have hE := hE1.trans hE2
    refine wp_bind (ctxUnref_drops A _ _ _ _ hI2 (hE.kind _ _ tc) (fun s3 hI3 hE3 => ?_))
    have hE := hE.trans hE3
    refine wp_bind (freeOpt_drops A _ _ _ _ hI3 (ts.ext hE) (fun s4 hI4 hE4 => ?_))
    have hE := hE.trans hE4
    refine wp_bind (listUnrefOpt_drops _ A _ _ _ _ hI4 (tcs.ext hE) (fun s5 hI5 hE5 => ?_))
    have hE := hE.trans hE5
    refine wp_bind (listUnrefOpt_drops _ A _ _ _ _ hI5 (ta.ext hE) (fun s6 hI6 hE6 => ?_))
    have hE := hE.trans hE6
    refine wp_bind (freeOpt_drops A _ _ _ _ hI6 (tv.ext hE) (fun s7 hI7 hE7 => ?_))
    have hE := hE.trans hE7
    exact listUnrefOpt_drops _ A _ _ _ _ hI7 (tst.ext hE) (fun s8 hI8 hE8 => h _ hI8 (hE.trans hE8))
  | _ => cases hok

theorem writerUnref_drops : Drops writerUnref .writer := by
  intro A s e i Q hI hk h
  obtain ⟨o, ho, hok⟩ := contents_of_kind hk
  cases o with
  | writer c pool networks asns countries key1 key2 =>
    unfold writerUnref
    have hl := hI.live List.mem_cons_self
    obtain ⟨tc, tp, tn, ta, tcs, tk1, tk2⟩ := typed_writer.1 (hI.typed hl ho)
    refine wp_bind (wp_look hl ho ?_)
    refine wp_bind (wp_decr hI ho (fun s1 hI1 hE1 => wp_pure (h _ hI1 hE1)) (fun s1 hI1 hE1 => ?_))
    simp only [if_true]
    rw [owns_writer] at hI1
    refine wp_bind (wp_touch (hI1.live (by simp)) ?_)
    refine wp_bind (freeOpt_drops A _ (key2.toList ++ (asns.toList ++ (countries.toList ++ (networks.toList ++
      (pool.toList ++ (c :: e)))))) _ _ (hI1.congr (by counts)) (tk1.ext hE1) (fun s2 hI2 hE2 => ?_))
    have hE := hE1.trans hE2
    refine wp_bind (freeOpt_drops A _ _ _ _ hI2 (tk2.ext hE) (fun s3 hI3 hE3 => ?_))
    have hE := hE.trans hE3
    refine wp_bind (listUnrefOpt_drops _ A _ _ _ _ hI3 (ta.ext hE) (fun s4 hI4 hE4 => ?_))
    have hE := hE.trans hE4
    refine wp_bind (listUnrefOpt_drops _ A _ _ _ _ hI4 (tcs.ext hE) (fun s5 hI5 hE5 => ?_))
    have hE := hE.trans hE5
    refine wp_bind (treeUnrefOpt_drops A _ _ _ _ hI5 (tn.ext hE) (fun s6 hI6 hE6 => ?_))
    have hE := hE.trans hE6
    refine wp_bind (poolUnrefOpt_drops A _ _ _ _ hI6 (tp.ext hE) (fun s7 hI7 hE7 => ?_))
    have hE := hE.trans hE7
    exact ctxUnref_drops A _ _ _ _ hI7 (hE.kind _ _ tc) (fun s8 hI8 hE8 => h _ hI8 (hE.trans hE8))
  | _ => cases hok

theorem pyDbUnref_drops : Drops pyDbUnref .pyDb := by
  intro A s e i Q hI hk h
  obtain ⟨o, ho, hok⟩ := contents_of_kind hk
  cases o with
  | pyDb d path =>
    unfold pyDbUnref
    have hl := hI.live List.mem_cons_self
    obtain ⟨td, tp⟩ := typed_pyDb.1 (hI.typed hl ho)
    refine wp_bind (wp_look hl ho ?_)
    refine wp_bind (wp_decr hI ho (fun s1 hI1 hE1 => wp_pure (h _ hI1 hE1)) (fun s1 hI1 hE1 => ?_))
    simp only [if_true]
    rw [owns_pyDb] at hI1
    refine wp_bind (dbUnrefOpt_drops A _ (path.toList ++ e) _ _ (hI1.congr (by counts)) (td.ext hE1)
      (fun s2 hI2 hE2 => ?_))
    have hE := hE1.trans hE2
    exact freeOpt_drops A _ _ _ _ hI2 (tp.ext hE) (fun s3 hI3 hE3 => h _ hI3 (hE.trans hE3))
  | _ => cases hok

theorem pyUnref_drops : Drops pyUnref .pyObj := by
  intro A s e i Q hI hk h
  obtain ⟨o, ho, hok⟩ := contents_of_kind hk
  cases o with
  | pyObj =>
    unfold pyUnref
    refine wp_bind (wp_look (hI.live List.mem_cons_self) ho ?_)
    exact wp_bind (wp_decr hI ho (fun s' hI' hE => wp_pure (h s' hI' hE)) (fun s' hI' hE => wp_pure (h s' hI' hE)))
  | _ => cases hok
end Loc.Objects
