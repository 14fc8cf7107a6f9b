import Verif.Lemmas.ObjectsNew
/-
Reference counts: pools, databases, enumerators, writers and the Python module.
-/
namespace Loc.Objects
open Spec

section
variable {A : Prop} {e : List Nat} {s : OState}

theorem Inv.loseAll (hA : A) : ∀ {l : List Nat}, Inv A s (l ++ e) → Inv A s e := by
  intro l
  induction l with
  | nil => intro h; exact h
  | cons x xs ih => intro h; exact ih (h.lose hA)

/-! ### Pools -/

theorem pool_fields {p : Nat} (hI : Inv A s e) (ha : Anchor e s p) (hk : kindOf s p = some .pool) :
    ∃ c blocks length size, contents s p = some (.pool c blocks length size) ∧ 0 < refs s p ∧ kindOf s c = some .ctx ∧
      0 < refs s c ∧ KAll s blocks.toList .block ∧ (∀ x ∈ blocks.toList, 0 < refs s x) ∧ (blocks = none → A ∨ size = 0) := by
  obtain ⟨o, ho, hok, hl⟩ := ha.look hI hk
  cases o with
  | pool c blocks length size =>
    obtain ⟨tc, tb⟩ := typed_pool.1 (hI.typed hl ho)
    exact ⟨c, blocks, length, size, ho, hl, tc, hI.field hl ho (by simp [owns_pool]), tb,
      fun x hx => hI.field hl ho (by rw [owns_pool]; exact List.mem_cons_of_mem _ hx), hI.sound hl ho⟩
  | _ => cases hok

theorem poolGrow_keeps {p c length size : Nat} {blocks : Option Nat} (hI : Inv A s e) (ha : Anchor e s p)
    (ho : contents s p = some (.pool c blocks length size)) :
    wp A (poolGrow p) s (fun r s' => Inv A s' e ∧ Ext [p] s s' ∧
      (r = true → ∃ x size', contents s' p = some (.pool c (some x) length size'))) := by
  obtain ⟨c, blocks, length, size, ho', hl, tc, hlc, tb, hlb, hs⟩ := pool_fields hI ha (kind_of_contents ho)
  rw [ho] at ho'
  cases ho'
  unfold poolGrow
  refine wp_bind (wp_look hl ho ?_)
  refine wp_bind (wp_touch hlc ?_)
  refine wp_bind (wp_oddly hI (fun r s1 hodd hI1 hs1 => ?_))
  have hE1 : Ext [] s s1 := Ext.same hs1
  have ho1 := hE1.content _ _ (by simp) ho
  have hl1 : 0 < refs s1 p := by rw [refs_eq hs1]; exact hl
  cases r with
  | true =>
    simp only [if_true]
    refine wp_bind (wp_store (o' := .pool c none length (size + 524288)) (e' := blocks.toList ++ e) hI1 hl1 ho1 rfl
      (by simp) (by counts) (typed_pool.2 ⟨hE1.kind _ _ tc, KAll.none⟩) (fun _ => .inl (hodd rfl)) trivial
      (fun _ => trivial) (fun s2 hI2 hE2 hc2 => ?_))
    have hI2' := hI2.loseAll (hodd rfl)
    have ha2 := (ha.nil hE1).ext hE2 (fun x hx => by simpa using hx)
    refine wp_bind (wp_touch (hI2'.field (ha2.live hI2' (fun _ h => h)) hc2 (by simp [owns_pool])) ?_)
    exact wp_pure ⟨hI2', hE1.nil.trans hE2, fun h => by cases h⟩
  | false =>
    simp only [Bool.false_eq_true, if_false]
    refine wp_bind (wp_create (o := .block) (e := e) hI1 (fun f hf => by cases hf) trivial trivial
      (fun i s2 _ hI2 hE2 hc2 _ => ?_))
    have hE2' : Ext [] s s2 := hE1.trans hE2
    have hl2 : 0 < refs s2 p := (ha.nil hE2').live hI2 (fun x hx => List.mem_cons_of_mem _ hx)
    refine wp_bind (wp_store (o' := .pool c (some i) length (size + 524288)) (e' := blocks.toList ++ e) hI2 hl2
      (hE2.content _ _ (by simp) ho1) rfl (by simp) (by counts)
      (typed_pool.2 ⟨hE2'.kind _ _ tc, KAll.some (kind_of_contents hc2)⟩) (fun h => by cases h) trivial (fun _ => trivial)
      (fun s3 hI3 hE3 hc3 => ?_))
    have hE3' : Ext [p] s s3 := hE2'.nil.trans hE3
    refine wp_bind (freeOpt_drops A _ _ _ _ hI3 (tb.ext hE3') (fun s4 hI4 hE4 => ?_))
    exact wp_pure ⟨hI4, hE3'.trans hE4.nil, fun _ => ⟨i, _, hE4.content _ _ (by simp) hc3⟩⟩

theorem poolStore_keeps {p c length size : Nat} {blocks : Option Nat} (len : Nat) (hI : Inv A s e) (ha : Anchor e s p)
    (ho : contents s p = some (.pool c blocks length size)) (hb : blocks = none → A) :
    wp A (poolStore p len) s (fun _ s' => Inv A s' e ∧ Ext [p] s s') := by
  obtain ⟨c, blocks, length, size, ho', hl, tc, hlc, tb, hlb, hs⟩ := pool_fields hI ha (kind_of_contents ho)
  rw [ho] at ho'
  cases ho'
  unfold poolStore
  refine wp_bind (wp_look hl ho ?_)
  cases blocks with
  | none => exact wp_null (hb rfl)
  | some x =>
    refine wp_bind (wp_touch (hlb x (by simp)) ?_)
    exact wp_store (o' := .pool c (some x) (length + (len + 1)) size) (e' := e) hI hl ho rfl (by simp) (by counts)
      (typed_pool.2 ⟨tc, tb⟩) (fun h => by cases h) trivial (fun _ => trivial) (fun s1 hI1 hE1 _ => ⟨hI1, hE1⟩)

theorem poolAdd_keeps {p : Nat} (len : Nat) (found : Bool) (hI : Inv A s e) (ha : Anchor e s p)
    (hk : kindOf s p = some .pool) : wp A (poolAdd p len found) s (fun _ s' => Inv A s' e ∧ Ext [p] s s') := by
  obtain ⟨c, blocks, length, size, ho, hl, tc, hlc, tb, hlb, hs⟩ := pool_fields hI ha hk
  unfold poolAdd
  refine wp_bind (wp_look hl ho ?_)
  cases found with
  | true => exact wp_pure ⟨hI, Ext.refl _ _⟩
  | false =>
    simp only [Bool.false_eq_true, if_false]
    refine wp_bind (wp_touch hlc ?_)
    split
    · refine wp_bind (wp_mono (poolGrow_keeps hI ha ho) (fun r s1 ⟨hI1, hE1, h⟩ => ?_))
      cases r with
      | false => exact wp_pure ⟨hI1, hE1⟩
      | true =>
        obtain ⟨x, size', hc1⟩ := h rfl
        simp only [if_true]
        refine wp_bind (wp_mono (poolStore_keeps len hI1 (ha.ext hE1 (fun y hy => by simpa using hy)) hc1
          (fun h => by cases h)) (fun _ s2 ⟨hI2, hE2⟩ => ?_))
        exact wp_pure ⟨hI2, hE1.trans hE2⟩
    · rename_i hlt
      refine wp_bind (wp_pure ?_)
      simp only [if_true]
      refine wp_bind (wp_mono (poolStore_keeps len hI ha ho (fun h => ?_)) (fun _ s2 ⟨hI2, hE2⟩ => ?_))
      · cases hs h with
        | inl hA => exact hA
        | inr h0 => omega
      · exact wp_pure ⟨hI2, hE2⟩

/-! ### Databases -/

theorem dbCloneHandle_keeps {d c : Nat} {data pool : Option Nat} {a : List (Nat × Bool)} {cs : List (CStr × Bool)}
    (hI : Inv A s e) (hd : d ∈ e) (ho : contents s d = some (.db c data pool none a cs)) :
    wp A (dbCloneHandle d) s (fun _ s' => Inv A s' e ∧ Ext [d] s s' ∧
      ∃ file, contents s' d = some (.db c data pool file a cs)) := by
  have hl := hI.live hd
  obtain ⟨tc, td, tp, tf⟩ := typed_db.1 (hI.typed hl ho)
  unfold dbCloneHandle
  refine wp_bind (wp_look hl ho ?_)
  simp only
  refine wp_bind (wp_chance hI (fun r s1 hI1 hs1 => ?_))
  have hE1 : Ext [] s s1 := Ext.same hs1
  have ho1 := hE1.content _ _ (by simp) ho
  cases r with
  | true =>
    simp only [if_true]
    refine wp_bind (wp_touch (hI1.field (hI1.live hd) ho1 (by simp [owns_db])) ?_)
    exact wp_pure ⟨hI1, hE1.nil, none, ho1⟩
  | false =>
    simp only [Bool.false_eq_true, if_false]
    refine wp_bind (wp_create (o := .block) (e := e) hI1 (fun f hf => by cases hf) trivial trivial
      (fun i s2 _ hI2 hE2 hc2 _ => ?_))
    have hE2' : Ext [] s s2 := hE1.trans hE2
    refine wp_bind (wp_oddly hI2 (fun r s3 hodd hI3 hs3 => ?_))
    have hE3 : Ext [] s s3 := hE2'.trans (Ext.same hs3)
    have ho3 := hE3.content _ _ (by simp) ho
    cases r with
    | true =>
      simp only [if_true]
      have hI3' := hI3.lose (hodd rfl)
      refine wp_bind (wp_touch (hI3'.field (hI3'.live hd) ho3 (by simp [owns_db])) ?_)
      exact wp_pure ⟨hI3', hE3.nil, none, ho3⟩
    | false =>
      simp only [Bool.false_eq_true, if_false]
      refine wp_bind (wp_oddly hI3 (fun r s4 hodd hI4 hs4 => ?_))
      have hE4 : Ext [] s s4 := hE3.trans (Ext.same hs4)
      have ho4 := hE4.content _ _ (by simp) ho
      cases r with
      | true =>
        simp only [if_true]
        have hI4' := hI4.lose (hodd rfl)
        refine wp_bind (wp_touch (hI4'.field (hI4'.live hd) ho4 (by simp [owns_db])) ?_)
        exact wp_pure ⟨hI4', hE4.nil, none, ho4⟩
      | false =>
        simp only [Bool.false_eq_true, if_false]
        have hki : kindOf s4 i = some .block :=
          (Ext.same (t := []) hs4).kind _ _ ((Ext.same (t := []) hs3).kind _ _ (kind_of_contents hc2))
        refine wp_bind (wp_store (o' := .db c data pool (some i) a cs) (e' := e) hI4
          (hI4.live (List.mem_cons_of_mem _ hd)) ho4 rfl (by simp) (by counts)
          (typed_db.2 ⟨hE4.kind _ _ tc, td.ext hE4, tp.ext hE4, KAll.some hki⟩) trivial trivial (fun h => h)
          (fun s5 hI5 hE5 hc5 => ?_))
        exact wp_pure ⟨hI5, hE4.nil.trans hE5, some i, hc5⟩

theorem dbMap_keeps {d c : Nat} {pool file : Option Nat} {a : List (Nat × Bool)} {cs : List (CStr × Bool)}
    (hI : Inv A s e) (hd : d ∈ e) (ho : contents s d = some (.db c none pool file a cs)) :
    wp A (dbMap d) s (fun r s' => Inv A s' e ∧ Ext [d] s s' ∧
      ∃ data, contents s' d = some (.db c data pool file a cs) ∧ (r = true → data ≠ none)) := by
  have hl := hI.live hd
  obtain ⟨tc, td, tp, tf⟩ := typed_db.1 (hI.typed hl ho)
  unfold dbMap
  refine wp_bind (wp_look hl ho ?_)
  simp only
  refine wp_bind (wp_chance hI (fun r s1 hI1 hs1 => ?_))
  have hE1 : Ext [] s s1 := Ext.same hs1
  have ho1 := hE1.content _ _ (by simp) ho
  cases r with
  | true =>
    simp only [if_true]
    refine wp_bind (wp_touch (hI1.field (hI1.live hd) ho1 (by simp [owns_db])) ?_)
    exact wp_pure ⟨hI1, hE1.nil, none, ho1, fun h => by cases h⟩
  | false =>
    simp only [Bool.false_eq_true, if_false]
    refine wp_bind (wp_create (o := .block) (e := e) hI1 (fun f hf => by cases hf) trivial trivial
      (fun i s2 _ hI2 hE2 hc2 _ => ?_))
    have hE2' : Ext [] s s2 := hE1.trans hE2
    refine wp_bind (wp_store (o' := .db c (some i) pool file a cs) (e' := e) hI2
      (hI2.live (List.mem_cons_of_mem _ hd)) (hE2'.content _ _ (by simp) ho) rfl (by simp) (by counts)
      (typed_db.2 ⟨hE2'.kind _ _ tc, KAll.some (kind_of_contents hc2), tp.ext hE2', tf.ext hE2'⟩) trivial trivial
      (fun h => absurd rfl h.1) (fun s3 hI3 hE3 hc3 => ?_))
    refine wp_bind (wp_chance hI3 (fun r s4 hI4 hs4 => ?_))
    have hE4 : Ext [] s3 s4 := Ext.same hs4
    have ho4 := hE4.content _ _ (by simp) hc3
    refine wp_bind (wp_touch (hI4.field (hI4.live hd) ho4 (by simp [owns_db])) ?_)
    exact wp_pure ⟨hI4, (hE2'.nil.trans hE3).trans hE4.nil, some i, ho4, fun _ h => by cases h⟩

theorem dbReadHeader_keeps {d c : Nat} {data file : Option Nat} {a : List (Nat × Bool)} {cs : List (CStr × Bool)}
    (hI : Inv A s e) (hd : d ∈ e) (ho : contents s d = some (.db c data none file a cs)) :
    wp A (dbReadHeader d) s (fun r s' => Inv A s' e ∧ Ext [d] s s' ∧
      ∃ pool, contents s' d = some (.db c data pool file a cs) ∧ (r = true → pool ≠ none)) := by
  have hl := hI.live hd
  obtain ⟨tc, td, tp, tf⟩ := typed_db.1 (hI.typed hl ho)
  have hlc := hI.field hl ho (show c ∈ _ by simp [owns_db])
  unfold dbReadHeader
  refine wp_bind (wp_look hl ho ?_)
  simp only
  refine wp_bind (wp_touch hlc ?_)
  refine wp_bind (wp_chance hI (fun r s1 hI1 hs1 => ?_))
  have hE1 : Ext [] s s1 := Ext.same hs1
  have ho1 := hE1.content _ _ (by simp) ho
  cases r with
  | true => exact wp_pure ⟨hI1, hE1.nil, none, ho1, fun h => by cases h⟩
  | false =>
    simp only [Bool.false_eq_true, if_false]
    refine wp_bind (wp_mono (poolNew_gives hI1 (by rw [refs_eq hs1]; exact hlc) (hE1.kind _ _ tc))
      (fun r s2 ⟨hI2, hE2, hk2⟩ => ?_))
    have hE2' : Ext [] s s2 := hE1.trans hE2
    cases r with
    | none => exact wp_pure ⟨hI2, hE2'.nil, none, hE2'.content _ _ (by simp) ho, fun h => by cases h⟩
    | some p =>
      refine wp_bind (wp_store (o' := .db c data (some p) file a cs) (e' := e) hI2
        (hI2.live (by simp [hd])) (hE2'.content _ _ (by simp) ho) rfl (by simp) (by counts)
        (typed_db.2 ⟨hE2'.kind _ _ tc, td.ext hE2', hk2, tf.ext hE2'⟩) trivial trivial
        (fun h => absurd rfl h.2) (fun s3 hI3 hE3 hc3 => ?_))
      exact wp_pure ⟨hI3, hE2'.nil.trans hE3, some p, hc3, fun _ h => by cases h⟩

theorem dbOpen_keeps {d c : Nat} {a : List (Nat × Bool)} {cs : List (CStr × Bool)} (hI : Inv A s e) (hd : d ∈ e)
    (ho : contents s d = some (.db c none none none a cs)) :
    wp A (dbOpen d) s (fun r s' => Inv A s' e ∧ Ext [d] s s' ∧ (r = true → Complete s' d)) := by
  unfold dbOpen
  refine wp_bind (wp_mono (dbCloneHandle_keeps hI hd ho) (fun r s1 ⟨hI1, hE1, file, ho1⟩ => ?_))
  cases r with
  | false => exact wp_pure ⟨hI1, hE1, fun h => by cases h⟩
  | true =>
    simp only [if_true]
    refine wp_bind (wp_chance hI1 (fun r s2 hI2 hs2 => ?_))
    have hE2 : Ext [d] s s2 := hE1.trans (Ext.same hs2)
    cases r with
    | true => exact wp_pure ⟨hI2, hE2, fun h => by cases h⟩
    | false =>
      simp only [Bool.false_eq_true, if_false]
      have ho2 : contents s2 d = some (.db c none none file a cs) := by rw [contents_eq hs2]; exact ho1
      refine wp_bind (wp_mono (dbMap_keeps hI2 hd ho2)
        (fun r s3 ⟨hI3, hE3, data, ho3, hdata⟩ => ?_))
      cases r with
      | false => exact wp_pure ⟨hI3, hE2.trans hE3, fun h => by cases h⟩
      | true =>
        simp only [if_true]
        refine wp_mono (dbReadHeader_keeps hI3 hd ho3) (fun r s4 ⟨hI4, hE4, pool, ho4, hpool⟩ => ?_)
        exact ⟨hI4, (hE2.trans hE3).trans hE4, fun h => ⟨_, ho4, hdata rfl, hpool h⟩⟩

theorem dbNew_gives {c : Nat} (a : List (Nat × Bool)) (cs : List (CStr × Bool)) (hI : Inv A s e) (hc : 0 < refs s c)
    (hk : kindOf s c = some .ctx) :
    wp A (dbNew c a cs) s (fun r s' => Gives A e [] s .db r s' ∧ ∀ i ∈ r.toList, Complete s' i) := by
  unfold dbNew
  refine wp_bind (wp_chance hI (fun r s1 hI1 hs1 => ?_))
  have hE1 : Ext [] s s1 := Ext.same hs1
  cases r with
  | true => exact wp_pure ⟨Gives.none hI1 hE1, fun _ h => by cases h⟩
  | false =>
    simp only [Bool.false_eq_true, if_false]
    refine wp_bind (wp_incr hI1 (by rw [refs_eq hs1]; exact hc) (hE1.kind _ _ hk) ctx_ne (fun s2 hI2 hE2 => ?_))
    have hE2' := hE1.trans hE2
    refine wp_bind (wp_create (o := .db c none none none a cs) (e := e) (hI2.congr (by counts))
      (typed_db.2 ⟨hE2'.kind _ _ hk, KAll.none, KAll.none, KAll.none⟩) trivial trivial (fun d s3 _ hI3 hE3 hc3 hn3 => ?_))
    have hE3' := hE2'.trans hE3
    refine wp_bind (wp_touch (hI3.field (hI3.live List.mem_cons_self) hc3 (by simp [owns_db])) ?_)
    refine wp_bind (wp_mono (dbOpen_keeps hI3 List.mem_cons_self hc3) (fun r s4 ⟨hI4, hE4, h4⟩ => ?_))
    have hE4' : Ext [] s s4 := Ext.fresh (hE3'.nil.trans hE4) (hE2'.absent hn3)
    have hk4 : kindOf s4 d = some .db := hE4.kind _ _ (kind_of_contents hc3)
    cases r with
    | true => exact wp_pure ⟨Gives.some hI4 hE4' hk4, fun i hi => by simp at hi; subst hi; exact h4 rfl⟩
    | false =>
      simp only [Bool.false_eq_true, if_false]
      refine wp_bind (dbUnref_drops A _ _ _ _ hI4 hk4 (fun s5 hI5 hE5 => ?_))
      exact wp_pure ⟨Gives.none hI5 (hE4'.trans hE5), fun _ h => by cases h⟩

theorem db_fields {d : Nat} (hI : Inv A s e) (ha : Anchor e s d) (hk : kindOf s d = some .db) (hc : Complete s d) :
    ∃ c x y file a cs, contents s d = some (.db c (some x) (some y) file a cs) ∧ 0 < refs s d ∧ kindOf s c = some .ctx ∧
      0 < refs s c ∧ 0 < refs s x ∧ 0 < refs s y := by
  obtain ⟨o, ho, hok, hl⟩ := ha.look hI hk
  obtain ⟨o', ho', hf⟩ := hc
  rw [ho] at ho'
  cases ho'
  cases o with
  | db c data pool file a cs =>
    obtain ⟨h1, h2⟩ := hf
    cases data with
    | none => exact absurd rfl h1
    | some x =>
      cases pool with
      | none => exact absurd rfl h2
      | some y =>
        obtain ⟨tc, _⟩ := typed_db.1 (hI.typed hl ho)
        exact ⟨c, x, y, file, a, cs, ho, hl, tc, hI.field hl ho (by simp [owns_db]), hI.field hl ho (by simp [owns_db]),
          hI.field hl ho (by simp [owns_db])⟩
  | _ => cases hok

theorem dbRead_keeps {x y : Nat} {Q : Unit → OState → Prop} (hx : 0 < refs s x) (hy : 0 < refs s y) (h : Q () s) :
    wp A (dbRead (some x) (some y)) s Q := by
  unfold dbRead follow
  exact wp_bind (wp_touch hx (wp_touch hy h))

theorem fetchAs_gives {d : Nat} (pos : Nat) (hI : Inv A s e) (ha : Anchor e s d) (hk : kindOf s d = some .db)
    (hc : Complete s d) : wp A (fetchAs d pos) s (Gives A e [] s (.item .as)) := by
  obtain ⟨c, x, y, file, a, cs, ho, hl, tc, hlc, hx, hy⟩ := db_fields hI ha hk hc
  unfold fetchAs
  refine wp_bind (wp_look hl ho ?_)
  simp only
  cases ha' : a[pos]? with
  | none => exact wp_pure (Gives.none hI (Ext.refl _ _))
  | some p =>
    obtain ⟨number, named⟩ := p
    simp only
    refine wp_bind (dbRead_keeps hx hy ?_)
    refine wp_bind (wp_mono (itemNew_gives_new .as number hI hlc tc) (fun r s1 ⟨⟨hI1, hE1, hk1⟩, hn1⟩ => ?_))
    cases r with
    | none => exact wp_pure (Gives.none hI1 hE1)
    | some i =>
      have hki := hk1 i (by simp)
      have hni := hn1 i (by simp)
      have fin : ∀ s2, Inv A s2 (i :: e) → Ext [i] s1 s2 → wp A (do touch c; pure (some i)) s2
          (Gives A e [] s (.item .as)) := by
        intro s2 hI2 hE2
        have hE2' := Ext.fresh (hE1.nil.trans hE2) hni
        have hl2 := (ha.nil hE2').live hI2 (fun x hx => List.mem_cons_of_mem _ hx)
        refine wp_bind (wp_touch (hI2.field hl2 (hE2'.content _ _ (by simp) ho) (by simp [owns_db])) ?_)
        exact wp_pure (Gives.some hI2 hE2' (hE2.kind _ _ hki))
      simp only
      split
      · exact wp_bind (wp_mono (itemSetName_keeps .as hI1 (.inl (by simp)) hki) (fun _ s2 ⟨hI2, hE2⟩ => fin s2 hI2 hE2))
      · exact wp_bind (wp_pure (fin s1 hI1 (Ext.refl _ _)))

theorem fetchCountry_gives {d : Nat} (pos : Nat) (hI : Inv A s e) (ha : Anchor e s d) (hk : kindOf s d = some .db)
    (hc : Complete s d) : wp A (fetchCountry d pos) s (Gives A e [] s (.item .country)) := by
  obtain ⟨c, x, y, file, a, cs, ho, hl, tc, hlc, hx, hy⟩ := db_fields hI ha hk hc
  unfold fetchCountry
  refine wp_bind (wp_look hl ho ?_)
  simp only
  cases ha' : cs[pos]? with
  | none => exact wp_pure (Gives.none hI (Ext.refl _ _))
  | some p =>
    obtain ⟨code, named⟩ := p
    simp only
    refine wp_bind (dbRead_keeps hx hy ?_)
    refine wp_bind (wp_mono (countryNew_gives_new code hI hlc tc) (fun r s1 ⟨⟨hI1, hE1, hk1⟩, hn1⟩ => ?_))
    cases r with
    | none => exact wp_pure (Gives.none hI1 hE1)
    | some i =>
      have hki := hk1 i (by simp)
      have hni := hn1 i (by simp)
      have fin : ∀ s2, Inv A s2 (i :: e) → Ext [i] s1 s2 → wp A (do touch c; pure (some i)) s2
          (Gives A e [] s (.item .country)) := by
        intro s2 hI2 hE2
        have hE2' := Ext.fresh (hE1.nil.trans hE2) hni
        have hl2 := (ha.nil hE2').live hI2 (fun x hx => List.mem_cons_of_mem _ hx)
        refine wp_bind (wp_touch (hI2.field hl2 (hE2'.content _ _ (by simp) ho) (by simp [owns_db])) ?_)
        exact wp_pure (Gives.some hI2 hE2' (hE2.kind _ _ hki))
      simp only
      split
      · refine wp_bind (wp_mono (itemSetName_keeps .country hI1 (.inl (by simp)) hki) (fun r s2 ⟨hI2, hE2⟩ => ?_))
        cases r with
        | true => exact fin s2 hI2 hE2
        | false =>
          simp only [Bool.false_eq_true, if_false]
          have hE2' := Ext.fresh (hE1.nil.trans hE2) hni
          refine wp_bind (itemUnref_drops .country A _ _ _ _ hI2 (hE2.kind _ _ hki) (fun s3 hI3 hE3 => ?_))
          exact wp_pure (Gives.none hI3 (hE2'.trans hE3))
      · exact fin s1 hI1 (Ext.refl _ _)

theorem getAsLoop_gives {d : Nat} (number : Nat) : ∀ (n : Nat) (lo hi : Int) (s : OState), (hi + 1 - lo).toNat ≤ n →
    Inv A s e → Anchor e s d → kindOf s d = some .db → Complete s d →
      wp A (getAsLoop d number lo hi) s (Gives A e [] s (.item .as)) := by
  intro n
  induction n with
  | zero =>
    intro lo hi s hn hI _ _ _
    rw [getAsLoop]
    have : ¬ lo ≤ hi := by omega
    simp only [if_neg this]
    exact wp_pure (Gives.none hI (Ext.refl _ _))
  | succ n ih =>
    intro lo hi s hn hI ha hk hc
    rw [getAsLoop]
    split
    · refine wp_bind (wp_mono (fetchAs_gives _ hI ha hk hc) (fun r s1 ⟨hI1, hE1, hk1⟩ => ?_))
      cases r with
      | none => exact wp_pure (Gives.none hI1 hE1)
      | some i =>
        have hki := hk1 i (by simp)
        simp only
        refine wp_bind (itemKey_keeps .as (hI1.live (by simp)) hki (fun r => ?_))
        split
        · exact wp_pure ⟨hI1, hE1, hk1⟩
        · refine wp_bind (itemUnref_drops .as A _ _ _ _ hI1 hki (fun s2 hI2 hE2 => ?_))
          have hE2' := hE1.trans hE2
          split
          · exact wp_mono (ih _ _ s2 (by omega) hI2 (ha.nil hE2') (hE2'.kind _ _ hk) (hE2'.full _ hc))
              (fun _ _ h => h.after hE2')
          · exact wp_mono (ih _ _ s2 (by omega) hI2 (ha.nil hE2') (hE2'.kind _ _ hk) (hE2'.full _ hc))
              (fun _ _ h => h.after hE2')
    · exact wp_pure (Gives.none hI (Ext.refl _ _))

theorem dbGetAs_gives {d : Nat} (number : Nat) (hI : Inv A s e) (ha : Anchor e s d) (hk : kindOf s d = some .db)
    (hc : Complete s d) : wp A (dbGetAs d number) s (Gives A e [] s (.item .as)) := by
  obtain ⟨c, x, y, file, a, cs, ho, hl, _⟩ := db_fields hI ha hk hc
  unfold dbGetAs
  refine wp_bind (wp_look hl ho ?_)
  exact getAsLoop_gives number _ _ _ _ (Nat.le_refl _) hI ha hk hc

theorem getCountryLoop_gives {d : Nat} (key : Nat) : ∀ (n : Nat) (lo hi : Int) (s : OState), (hi + 1 - lo).toNat ≤ n →
    Inv A s e → Anchor e s d → kindOf s d = some .db → Complete s d →
      wp A (getCountryLoop d key lo hi) s (Gives A e [] s (.item .country)) := by
  intro n
  induction n with
  | zero =>
    intro lo hi s hn hI _ _ _
    rw [getCountryLoop]
    have : ¬ lo ≤ hi := by omega
    simp only [if_neg this]
    exact wp_pure (Gives.none hI (Ext.refl _ _))
  | succ n ih =>
    intro lo hi s hn hI ha hk hc
    rw [getCountryLoop]
    split
    · refine wp_bind (wp_mono (fetchCountry_gives _ hI ha hk hc) (fun r s1 ⟨hI1, hE1, hk1⟩ => ?_))
      cases r with
      | none => exact wp_pure (Gives.none hI1 hE1)
      | some i =>
        have hki := hk1 i (by simp)
        simp only
        refine wp_bind (itemKey_keeps .country (hI1.live (by simp)) hki (fun r => ?_))
        split
        · exact wp_pure ⟨hI1, hE1, hk1⟩
        · refine wp_bind (itemUnref_drops .country A _ _ _ _ hI1 hki (fun s2 hI2 hE2 => ?_))
          have hE2' := hE1.trans hE2
          split
          · exact wp_mono (ih _ _ s2 (by omega) hI2 (ha.nil hE2') (hE2'.kind _ _ hk) (hE2'.full _ hc))
              (fun _ _ h => h.after hE2')
          · exact wp_mono (ih _ _ s2 (by omega) hI2 (ha.nil hE2') (hE2'.kind _ _ hk) (hE2'.full _ hc))
              (fun _ _ h => h.after hE2')
    · exact wp_pure (Gives.none hI (Ext.refl _ _))

theorem dbGetCountry_gives {d : Nat} (code : CStr) (hI : Inv A s e) (ha : Anchor e s d) (hk : kindOf s d = some .db)
    (hc : Complete s d) : wp A (dbGetCountry d code) s (Gives A e [] s (.item .country)) := by
  obtain ⟨c, x, y, file, a, cs, ho, hl, _⟩ := db_fields hI ha hk hc
  unfold dbGetCountry
  refine wp_bind (wp_look hl ho ?_)
  simp only
  split
  · exact getCountryLoop_gives _ _ _ _ _ (Nat.le_refl _) hI ha hk hc
  · exact wp_pure (Gives.none hI (Ext.refl _ _))

theorem dbLookup_gives {d : Nat} (leaf : Option Bool) (hI : Inv A s e) (ha : Anchor e s d) (hk : kindOf s d = some .db)
    (hc : Complete s d) : wp A (dbLookup d leaf) s (Gives A e [] s (.item .network)) := by
  obtain ⟨c, x, y, file, a, cs, ho, hl, tc, hlc, hx, hy⟩ := db_fields hI ha hk hc
  unfold dbLookup
  refine wp_bind (wp_look hl ho ?_)
  simp only
  cases leaf with
  | none => exact wp_pure (Gives.none hI (Ext.refl _ _))
  | some inside =>
    simp only
    refine wp_bind (dbRead_keeps hx hy ?_)
    refine wp_bind (wp_mono (itemNew_gives .network 0 hI hlc tc) (fun r s1 ⟨hI1, hE1, hk1⟩ => ?_))
    cases r with
    | none =>
      have hl1 := (ha.nil hE1).live hI1 (fun x hx => List.mem_append_right _ hx)
      exact wp_bind (wp_touch (hI1.field hl1 (hE1.content _ _ (by simp) ho) (by simp [owns_db]))
        (wp_pure (Gives.none hI1 hE1)))
    | some i =>
      simp only
      split
      · exact wp_pure ⟨hI1, hE1, hk1⟩
      · exact wp_bind (itemUnref_drops .network A _ _ _ _ hI1 (hk1 i (by simp)) (fun s2 hI2 hE2 =>
          wp_pure (Gives.none hI2 (hE1.trans hE2))))

/-! ### Enumerators -/

theorem enumNew_gives_new {d : Nat} (m : EnumMode) (hI : Inv A s e) (ha : Anchor e s d) (hk : kindOf s d = some .db)
    (hc : Complete s d) : wp A (enumNew d m) s (GivesNew A e s .enum) := by
  obtain ⟨c, x, y, file, a, cs, ho, hl, tc, hlc, hx, hy⟩ := db_fields hI ha hk hc
  unfold enumNew
  refine wp_bind (wp_look hl ho ?_)
  simp only
  refine wp_bind (wp_chance hI (fun r s1 hI1 hs1 => ?_))
  have hE1 : Ext [] s s1 := Ext.same hs1
  cases r with
  | true => exact wp_pure (GivesNew.none hI1 hE1)
  | false =>
    simp only [Bool.false_eq_true, if_false]
    refine wp_bind (wp_incr hI1 (by rw [refs_eq hs1]; exact hlc) (hE1.kind _ _ tc) ctx_ne (fun s2 hI2 hE2 => ?_))
    have hE2' := hE1.trans hE2
    refine wp_bind (wp_incr hI2 ((ha.nil hE2').live hI2 (fun x hx => List.mem_cons_of_mem _ hx)) (hE2'.kind _ _ hk)
      (by decide) (fun s3 hI3 hE3 => ?_))
    have hE3' := hE2'.trans hE3
    refine wp_bind (wp_create (o := .enum c d m none none none none none 0 0) (e := e) (hI3.congr (by counts))
      (typed_enum.2 ⟨hE3'.kind _ _ tc, hE3'.kind _ _ hk, KAll.none, KAll.none, KAll.none, KAll.none, KAll.none⟩) trivial
      (hE3'.full _ hc) (fun i s4 _ hI4 hE4 hc4 hn4 => ?_))
    have hni : contents s i = none := hE3'.absent hn4
    have hE4' := hE3'.trans hE4
    refine wp_bind (wp_mono (malloc_gives hI4) (fun r s5 ⟨hI5, hE5, hk5⟩ => ?_))
    have hE5' := hE4'.trans hE5
    have hc5 := hE5.content _ _ (by simp) hc4
    cases r with
    | none =>
      refine wp_bind (wp_touch (hI5.field (hI5.live (by simp)) hc5 (by simp [owns_enum])) ?_)
      refine wp_bind (enumUnref_drops A _ _ _ _ hI5 (kind_of_contents hc5) (fun s6 hI6 hE6 => ?_))
      exact wp_pure (GivesNew.none hI6 (hE5'.trans hE6))
    | some v =>
      refine wp_bind (wp_store (o' := .enum c d m none none none (some v) none 0 0) (e' := i :: e) hI5
        (hI5.live (by simp)) hc5 rfl (by simp) (by counts)
        (typed_enum.2 ⟨hE5'.kind _ _ tc, hE5'.kind _ _ hk, KAll.none, KAll.none, KAll.none, hk5, KAll.none⟩) trivial
        (hE5'.full _ hc) (fun _ => trivial) (fun s6 hI6 hE6 hc6 => ?_))
      have hE6' : Ext [] s s6 := Ext.fresh (hE5'.nil.trans hE6) hni
      refine wp_bind (wp_mono (listNew_gives .network hI6 (hI6.field (hI6.live List.mem_cons_self) hc6
        (by simp [owns_enum])) (hE6'.kind _ _ tc)) (fun r s7 ⟨hI7, hE7, hk7⟩ => ?_))
      have hE7' := hE6'.trans hE7
      have hc7 := hE7.content _ _ (by simp) hc6
      cases r with
      | none =>
        refine wp_bind (enumUnref_drops A _ _ _ _ hI7 (kind_of_contents hc7) (fun s8 hI8 hE8 => ?_))
        exact wp_pure (GivesNew.none hI8 (hE7'.trans hE8))
      | some l =>
        refine wp_bind (wp_store (o' := .enum c d m none none none (some v) (some l) 0 0) (e' := i :: e) hI7
          (hI7.live (by simp)) hc7 rfl (by simp) (by counts)
          (typed_enum.2 ⟨hE7'.kind _ _ tc, hE7'.kind _ _ hk, KAll.none, KAll.none, KAll.none,
            (hk5.ext hE6).ext hE7, hk7⟩) trivial (hE7'.full _ hc) (fun _ => trivial) (fun s8 hI8 hE8 hc8 => ?_))
        have hE8' : Ext [] s s8 := Ext.fresh (hE7'.nil.trans hE8) hni
        refine wp_bind (wp_touch (hI8.field (hI8.live List.mem_cons_self) hc8 (by simp [owns_enum])) ?_)
        exact wp_pure (GivesNew.some hI8 hE8' (kind_of_contents hc8) hni)

theorem enum_fields {x : Nat} (hI : Inv A s e) (hx : x ∈ e) (hk : kindOf s x = some .enum) :
    ∃ c d m string countries asns visited stack i j,
      contents s x = some (.enum c d m string countries asns visited stack i j) := by
  obtain ⟨o, ho, hok, hl⟩ := (Anchor.look (.inl hx) hI hk : ∃ o, _)
  cases o with
  | enum c d m string countries asns visited stack i j => exact ⟨_, _, _, _, _, _, _, _, _, _, ho⟩
  | _ => cases hok

theorem enumSetString_keeps {x : Nat} (hI : Inv A s e) (hx : x ∈ e) (hk : kindOf s x = some .enum)
    (hs : A ∨ ∀ c d m string countries asns visited stack i j,
      contents s x = some (.enum c d m string countries asns visited stack i j) → string = none) :
    wp A (enumSetString x) s (fun _ s' => Inv A s' e ∧ Ext [x] s s') := by
  obtain ⟨c, d, m, string, countries, asns, visited, stack, i, j, ho⟩ := enum_fields hI hx hk
  have hl := hI.live hx
  obtain ⟨tc, td, ts, tcs, ta, tv, tst⟩ := typed_enum.1 (hI.typed hl ho)
  unfold enumSetString
  refine wp_bind (wp_look hl ho ?_)
  simp only
  refine wp_bind (wp_oddly hI (fun r s1 hodd hI1 hs1 => ?_))
  have hE1 : Ext [] s s1 := Ext.same hs1
  cases r with
  | true => exact wp_null (hodd rfl)
  | false =>
    simp only [Bool.false_eq_true, if_false]
    refine wp_bind (wp_create (o := .block) (e := e) hI1 (fun f hf => by cases hf) trivial trivial
      (fun b s2 _ hI2 hE2 hc2 _ => ?_))
    have hE2' := hE1.trans hE2
    refine wp_bind (wp_store (o' := .enum c d m (some b) countries asns visited stack i j) (e' := string.toList ++ e) hI2
      (hI2.live (by simp [hx])) (hE2'.content _ _ (by simp) ho) rfl (by simp) (by counts)
      (typed_enum.2 ⟨hE2'.kind _ _ tc, hE2'.kind _ _ td, KAll.some (kind_of_contents hc2), tcs.ext hE2', ta.ext hE2',
        tv.ext hE2', tst.ext hE2'⟩) trivial ((hI.refers hl ho).ext hE2') (fun _ => trivial) (fun s3 hI3 hE3 hc3 => ?_))
    have hI3' : Inv A s3 e := by
      cases hs with
      | inl hA => exact hI3.loseAll hA
      | inr hs => rw [hs _ _ _ _ _ _ _ _ _ _ ho] at hI3; exact hI3
    refine wp_touch (hI3'.field (hI3'.live hx) hc3 (by simp [owns_enum])) ⟨hI3', hE2'.nil.trans hE3⟩

theorem enumSetCountries_keeps {x l : Nat} (hI : Inv A s e) (hx : x ∈ e) (hk : kindOf s x = some .enum) (hl : l ∈ e)
    (hkl : kindOf s l = some (.list .country)) :
    wp A (enumSetCountries x l) s (fun _ s' => Inv A s' e ∧ Ext [x] s s') := by
  obtain ⟨c, d, m, string, countries, asns, visited, stack, i, j, ho⟩ := enum_fields hI hx hk
  obtain ⟨tc, td, ts, tcs, ta, tv, tst⟩ := typed_enum.1 (hI.typed (hI.live hx) ho)
  have hr := hI.refers (hI.live hx) ho
  unfold enumSetCountries
  refine wp_bind (wp_look (hI.live hx) ho ?_)
  simp only
  refine wp_bind (wp_store (o' := .enum c d m string none asns visited stack i j) (e' := countries.toList ++ e) hI
    (hI.live hx) ho rfl (by simp) (by counts) (typed_enum.2 ⟨tc, td, ts, KAll.none, ta, tv, tst⟩) trivial hr
    (fun _ => trivial) (fun s1 hI1 hE1 hc1 => ?_))
  refine wp_bind (listUnrefOpt_drops _ A _ _ _ _ hI1 (tcs.ext hE1) (fun s2 hI2 hE2 => ?_))
  have hE2' : Ext [x] s s2 := hE1.trans hE2.nil
  refine wp_bind (wp_incr hI2 (hI2.live hl) (hE2'.kind _ _ hkl) (by simp) (fun s3 hI3 hE3 => ?_))
  have hE3' : Ext [x] s s3 := hE2'.trans hE3.nil
  exact wp_store (o' := .enum c d m string (some l) asns visited stack i j) (e' := e) hI3
    (hI3.live (List.mem_cons_of_mem _ hx)) (hE3.content _ _ (by simp) (hE2.content _ _ (by simp) hc1)) rfl (by simp)
    (by counts) (typed_enum.2 ⟨hE3'.kind _ _ tc, hE3'.kind _ _ td, ts.ext hE3', KAll.some (hE3'.kind _ _ hkl),
      ta.ext hE3', tv.ext hE3', tst.ext hE3'⟩) trivial (hE3'.full _ hr)
    (fun _ => trivial) (fun s4 hI4 hE4 _ => ⟨hI4, hE3'.trans hE4⟩)

theorem enumSetAsns_keeps {x l : Nat} (hI : Inv A s e) (hx : x ∈ e) (hk : kindOf s x = some .enum) (hl : l ∈ e)
    (hkl : kindOf s l = some (.list .as)) :
    wp A (enumSetAsns x l) s (fun _ s' => Inv A s' e ∧ Ext [x] s s') := by
  obtain ⟨c, d, m, string, countries, asns, visited, stack, i, j, ho⟩ := enum_fields hI hx hk
  obtain ⟨tc, td, ts, tcs, ta, tv, tst⟩ := typed_enum.1 (hI.typed (hI.live hx) ho)
  have hr := hI.refers (hI.live hx) ho
  unfold enumSetAsns
  refine wp_bind (wp_look (hI.live hx) ho ?_)
  simp only
  refine wp_bind (wp_store (o' := .enum c d m string countries none visited stack i j) (e' := asns.toList ++ e) hI
    (hI.live hx) ho rfl (by simp) (by counts) (typed_enum.2 ⟨tc, td, ts, tcs, KAll.none, tv, tst⟩) trivial hr
    (fun _ => trivial) (fun s1 hI1 hE1 hc1 => ?_))
  refine wp_bind (listUnrefOpt_drops _ A _ _ _ _ hI1 (ta.ext hE1) (fun s2 hI2 hE2 => ?_))
  have hE2' : Ext [x] s s2 := hE1.trans hE2.nil
  refine wp_bind (wp_incr hI2 (hI2.live hl) (hE2'.kind _ _ hkl) (by simp) (fun s3 hI3 hE3 => ?_))
  have hE3' : Ext [x] s s3 := hE2'.trans hE3.nil
  exact wp_store (o' := .enum c d m string countries (some l) visited stack i j) (e' := e) hI3
    (hI3.live (List.mem_cons_of_mem _ hx)) (hE3.content _ _ (by simp) (hE2.content _ _ (by simp) hc1)) rfl (by simp)
    (by counts) (typed_enum.2 ⟨hE3'.kind _ _ tc, hE3'.kind _ _ td, ts.ext hE3', tcs.ext hE3', KAll.some (hE3'.kind _ _ hkl),
      tv.ext hE3', tst.ext hE3'⟩) trivial (hE3'.full _ hr)
    (fun _ => trivial) (fun s4 hI4 hE4 _ => ⟨hI4, hE3'.trans hE4⟩)

theorem enumGetList_gives {x : Nat} (k : Item) (hn : k ≠ .network) (hI : Inv A s e) (hx : x ∈ e)
    (hk : kindOf s x = some .enum) : wp A (enumGetList k x) s (Gives A e [] s (.list k)) := by
  obtain ⟨c, d, m, string, countries, asns, visited, stack, i, j, ho⟩ := enum_fields hI hx hk
  obtain ⟨tc, td, ts, tcs, ta, tv, tst⟩ := typed_enum.1 (hI.typed (hI.live hx) ho)
  unfold enumGetList
  refine wp_bind (wp_look (hI.live hx) ho ?_)
  cases k with
  | network => exact absurd rfl hn
  | country =>
    cases countries with
    | none => exact wp_pure (Gives.none hI (Ext.refl _ _))
    | some l =>
      have hkl := tcs l (by simp)
      exact wp_bind (wp_incr hI (hI.field (hI.live hx) ho (by simp [owns_enum])) hkl (by simp) (fun s1 hI1 hE1 =>
        wp_pure (Gives.some hI1 hE1 (hE1.kind _ _ hkl))))
  | as =>
    cases asns with
    | none => exact wp_pure (Gives.none hI (Ext.refl _ _))
    | some l =>
      have hkl := ta l (by simp)
      exact wp_bind (wp_incr hI (hI.field (hI.live hx) ho (by simp [owns_enum])) hkl (by simp) (fun s1 hI1 hE1 =>
        wp_pure (Gives.some hI1 hE1 (hE1.kind _ _ hkl))))

theorem enumStoreIndexes_keeps {x c d i j : Nat} {m : EnumMode} {string countries asns visited stack : Option Nat}
    (i' j' : Nat) (hI : Inv A s e) (hx : x ∈ e)
    (ho : contents s x = some (.enum c d m string countries asns visited stack i j)) :
    wp A (enumStoreIndexes x i' j') s (fun _ s' => Inv A s' e ∧ Ext [x] s s' ∧
      contents s' x = some (.enum c d m string countries asns visited stack i' j')) := by
  have ht := typed_enum.1 (hI.typed (hI.live hx) ho)
  have hr : Complete s d := hI.refers (hI.live hx) ho
  unfold enumStoreIndexes
  refine wp_bind (wp_look (hI.live hx) ho ?_)
  exact wp_store (o' := .enum c d m string countries asns visited stack i' j') (e' := e) hI (hI.live hx) ho rfl (by simp)
    (by counts) (typed_enum.2 ht) trivial hr (fun _ => trivial)
    (fun s1 hI1 hE1 hc1 => ⟨hI1, hE1, hc1⟩)

theorem enum_db_anchor {x c d i j : Nat} {m : EnumMode} {string countries asns visited stack : Option Nat}
    (hI : Inv A s e) (hx : x ∈ e) (ho : contents s x = some (.enum c d m string countries asns visited stack i j)) :
    Anchor e s d ∧ kindOf s d = some .db ∧ Complete s d := by
  obtain ⟨tc, td, _⟩ := typed_enum.1 (hI.typed (hI.live hx) ho)
  refine ⟨.inr ⟨x, hx, ?_, _, ho, by simp [owns_enum]⟩, td, hI.refers (hI.live hx) ho⟩
  intro h; subst h
  rw [kind_of_contents ho] at td
  cases td

theorem asMatch_keeps {a : Nat} {string : Option Nat} (matched : Bool) {Q : Bool → OState → Prop} (hI : Inv A s e)
    (ha : a ∈ e) (hk : kindOf s a = some (.item .as)) (hs : ∀ b ∈ string.toList, 0 < refs s b) (h : ∀ r, Q r s) :
    wp A (asMatch a string matched) s Q := by
  unfold asMatch
  cases string with
  | none => exact wp_pure (h _)
  | some b =>
    obtain ⟨o, ho, hok⟩ := contents_of_kind hk
    cases o with
    | item k' c key name =>
      simp only
      refine wp_bind (wp_look (hI.live ha) ho ?_)
      cases name with
      | none => exact wp_pure (h _)
      | some n =>
        refine wp_bind (wp_touch (hI.field (hI.live ha) ho (by simp [owns_item])) ?_)
        exact wp_bind (wp_touch (hs b (by simp)) (wp_pure (h _)))
    | _ => cases hok

theorem nextAsLoop_gives {x c d : Nat} {m : EnumMode} {string countries asns visited stack : Option Nat} (j0 : Nat)
    (matched : Nat → Bool) (hx : x ∈ e) : ∀ (is : List Nat) (s : OState) (i j : Nat), Inv A s e →
      contents s x = some (.enum c d m string countries asns visited stack i j) →
      wp A (nextAsLoop x d string j0 matched is) s (Gives A e [x] s (.item .as)) := by
  intro is
  induction is with
  | nil =>
    intro s i j hI ho
    unfold nextAsLoop
    exact wp_bind (wp_mono (enumStoreIndexes_keeps _ _ hI hx ho) (fun _ s1 ⟨hI1, hE1, _⟩ => wp_pure (Gives.none hI1 hE1)))
  | cons n is ih =>
    intro s i j hI ho
    unfold nextAsLoop
    refine wp_bind (wp_mono (enumStoreIndexes_keeps _ _ hI hx ho) (fun _ s1 ⟨hI1, hE1, hc1⟩ => ?_))
    obtain ⟨ha, hkd, hcd⟩ := enum_db_anchor hI1 hx hc1
    refine wp_bind (wp_mono (fetchAs_gives n hI1 ha hkd hcd) (fun r s2 ⟨hI2, hE2, hk2⟩ => ?_))
    have hE2' : Ext [x] s s2 := hE1.trans hE2.nil
    have hc2 := hE2.content _ _ (by simp) hc1
    cases r with
    | none => exact wp_pure (Gives.none hI2 hE2')
    | some a =>
      refine wp_bind (asMatch_keeps _ hI2 (by simp) (hk2 a (by simp)) (fun b hb => hI2.field (hI2.live (by simp [hx])) hc2
        (by simp only [owns_enum]; simp at hb; simp [hb])) (fun hit => ?_))
      cases hit with
      | true => exact wp_pure ⟨hI2, hE2', hk2⟩
      | false =>
        simp only [Bool.false_eq_true, if_false]
        refine wp_bind (itemUnref_drops .as A _ _ _ _ hI2 (hk2 a (by simp)) (fun s3 hI3 hE3 => ?_))
        exact wp_mono (ih s3 _ _ hI3 (hE3.content _ _ (by simp) hc2)) (fun _ _ h => h.after (hE2'.trans hE3.nil))

theorem enumNextAs_gives {x : Nat} (matched : Nat → Bool) (hI : Inv A s e) (hx : x ∈ e) (hk : kindOf s x = some .enum) :
    wp A (enumNextAs x matched) s (Gives A e [x] s (.item .as)) := by
  obtain ⟨c, d, m, string, countries, asns, visited, stack, i, j, ho⟩ := enum_fields hI hx hk
  unfold enumNextAs
  refine wp_bind (wp_look (hI.live hx) ho ?_)
  simp only
  split
  · obtain ⟨ha, hkd, hcd⟩ := enum_db_anchor hI hx ho
    obtain ⟨_, _, _, _, as, cs, hod, hl, _⟩ := db_fields hI ha hkd hcd
    refine wp_bind (wp_look hl hod ?_)
    exact nextAsLoop_gives j matched hx _ _ _ _ hI ho
  · exact wp_pure (Gives.none hI (Ext.refl _ _))

theorem enumNextCountry_gives {x : Nat} (hI : Inv A s e) (hx : x ∈ e) (hk : kindOf s x = some .enum) :
    wp A (enumNextCountry x) s (Gives A e [x] s (.item .country)) := by
  obtain ⟨c, d, m, string, countries, asns, visited, stack, i, j, ho⟩ := enum_fields hI hx hk
  unfold enumNextCountry
  refine wp_bind (wp_look (hI.live hx) ho ?_)
  simp only
  split
  · obtain ⟨ha, hkd, hcd⟩ := enum_db_anchor hI hx ho
    obtain ⟨_, _, _, _, as, cs, hod, hl, _⟩ := db_fields hI ha hkd hcd
    refine wp_bind (wp_look hl hod ?_)
    simp only
    split
    · refine wp_bind (wp_mono (enumStoreIndexes_keeps _ _ hI hx ho) (fun _ s1 ⟨hI1, hE1, hc1⟩ => ?_))
      obtain ⟨ha, hkd, hcd⟩ := enum_db_anchor hI1 hx hc1
      exact wp_mono (fetchCountry_gives _ hI1 ha hkd hcd) (fun r s2 ⟨hI2, hE2, hk2⟩ => ⟨hI2, hE1.trans hE2.nil, hk2⟩)
    · exact wp_bind (wp_mono (enumStoreIndexes_keeps _ _ hI hx ho) (fun _ s1 ⟨hI1, hE1, _⟩ =>
        wp_pure (Gives.none hI1 hE1)))
  · exact wp_pure (Gives.none hI (Ext.refl _ _))

end
end Loc.Objects
