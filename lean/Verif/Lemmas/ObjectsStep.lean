import Verif.Lemmas.ObjectsApi
/-
Reference counts: writers, the Python module, and whole histories.
-/
namespace Loc.Objects
open Spec

section
variable {A : Prop} {e : List Nat} {s : OState}

/-! ### Writers -/

theorem parseKey_keeps {c : Nat} (file : Bool) (hI : Inv A s e) (hc : ∀ s', Inv A s' e → Ext [] s s' → 0 < refs s' c) :
    wp A (parseKey c file) s (fun r s' => Ext [] s s' ∧ (r = none → Inv A s' e) ∧
      ∀ k, r = some k → Inv A s' (k.toList ++ e) ∧ KAll s' k.toList .block) := by
  unfold parseKey
  cases file with
  | false =>
    exact wp_pure ⟨Ext.refl _ _, fun h => (by cases h), fun k hk => by cases hk; exact ⟨hI, KAll.none⟩⟩
  | true =>
    simp only [if_true]
    refine wp_bind (wp_mono (malloc_gives hI) (fun r s1 ⟨hI1, hE1, hk1⟩ => ?_))
    cases r with
    | none =>
      refine wp_bind (wp_touch (hc s1 hI1 hE1) (wp_pure ⟨hE1, fun _ => hI1, fun k hk => by cases hk⟩))
    | some k =>
      exact wp_pure ⟨hE1, fun h => (by cases h), fun k hk => by cases hk; exact ⟨hI1, hk1⟩⟩

theorem writer_fails {w : Nat} {s' : OState} (hI : Inv A s' (w :: e)) (hk : kindOf s' w = some .writer) (hE : Ext [] s s') :
    wp A (do writerUnref w; pure none) s' (fun r s' => Gives A e [] s .writer r s' ∧ ∀ i ∈ r.toList, Complete s' i) :=
  wp_bind (writerUnref_drops A _ _ _ _ hI hk (fun _ hI1 hE1 =>
    wp_pure ⟨Gives.none hI1 (hE.trans hE1), fun _ h => by cases h⟩))

theorem writerNew_gives {c : Nat} (file1 file2 : Bool) (hI : Inv A s e) (hc : 0 < refs s c)
    (hk : kindOf s c = some .ctx) :
    wp A (writerNew c file1 file2) s (fun r s' => Gives A e [] s .writer r s' ∧ ∀ i ∈ r.toList, Complete s' i) := by
  unfold writerNew
  refine wp_bind (wp_chance hI (fun r s1 hI1 hs1 => ?_))
  have hE1 : Ext [] s s1 := Ext.same hs1
  cases r with
  | true => exact wp_pure ⟨Gives.none hI1 hE1, fun _ h => by cases h⟩
  | false =>
    simp only [Bool.false_eq_true, if_false]
    refine wp_bind (wp_incr hI1 (by rw [refs_eq hs1]; exact hc) (hE1.kind _ _ hk) ctx_ne (fun s2 hI2 hE2 => ?_))
    have hE2' := hE1.trans hE2
    refine wp_bind (wp_create (o := .writer c none none none none none none) (e := e) (hI2.congr (by counts))
      (typed_writer.2 ⟨hE2'.kind _ _ hk, KAll.none, KAll.none, KAll.none, KAll.none, KAll.none, KAll.none⟩) trivial trivial
      (fun w s3 _ hI3 hE3 hc3 hn3 => ?_))
    have hnw : contents s w = none := hE2'.absent hn3
    have hE3' := hE2'.trans hE3
    refine wp_bind (wp_mono (poolNew_gives_new hI3 (hI3.field (hI3.live List.mem_cons_self) hc3 (by simp [owns_writer]))
      (hE3'.kind _ _ hk)) (fun r s4 ⟨⟨hI4, hE4, hk4⟩, hn4⟩ => ?_))
    have hE4' := hE3'.trans hE4
    have hc4 := hE4.content _ _ (by simp) hc3
    cases r with
    | none => exact writer_fails hI4 (kind_of_contents hc4) hE4'
    | some p =>
      refine wp_bind (wp_store (o' := .writer c (some p) none none none none none) (e' := w :: e) hI4
        (hI4.live (by simp)) hc4 rfl (by simp) (by counts)
        (typed_writer.2 ⟨hE4'.kind _ _ hk, hk4, KAll.none, KAll.none, KAll.none, KAll.none, KAll.none⟩) trivial trivial
        (fun h => absurd rfl h.1) (fun s5 hI5 hE5 hc5 => ?_))
      have hE5' : Ext [] s s5 := Ext.fresh (hE4'.nil.trans hE5) hnw
      have hkp5 : kindOf s5 p = some .pool := hE5.kind _ _ (hk4 p (by simp))
      have hwp : w ≠ p := by
        intro h; subst h
        rw [kind_of_contents hc5] at hkp5
        cases hkp5
      refine wp_bind (wp_mono (poolAdd_keeps 0 false hI5 (.inr ⟨w, by simp, hwp, _, hc5, by simp [owns_writer]⟩) hkp5)
        (fun ok s6 ⟨hI6, hE6⟩ => ?_))
      have hc6 := hE6.content _ _ (by simp [hwp]) hc5
      have hE6' : Ext [] s s6 := Ext.fresh (hE5'.nil.trans hE6) (hE3'.absent (hn4 p (by simp)))
      cases ok with
      | false => exact writer_fails hI6 (kind_of_contents hc6) hE6'
      | true =>
        simp only [Bool.not_true, Bool.false_eq_true, if_false]
        refine wp_bind (wp_mono (treeNew_gives hI6 (hI6.field (hI6.live List.mem_cons_self) hc6 (by simp [owns_writer]))
          (hE6'.kind _ _ hk)) (fun r s7 ⟨hI7, hE7, hk7⟩ => ?_))
        have hE7' := hE6'.trans hE7
        have hc7 := hE7.content _ _ (by simp) hc6
        have hkp7 := hE7.kind _ _ (hE6.kind _ _ hkp5)
        cases r with
        | none => exact writer_fails hI7 (kind_of_contents hc7) hE7'
        | some t =>
          refine wp_bind (wp_store (o' := .writer c (some p) (some t) none none none none) (e' := w :: e) hI7
            (hI7.live (by simp)) hc7 rfl (by simp) (by counts)
            (typed_writer.2 ⟨hE7'.kind _ _ hk, KAll.some hkp7, hk7, KAll.none, KAll.none, KAll.none, KAll.none⟩) trivial
            trivial (fun h => absurd rfl h.2.1) (fun s8 hI8 hE8 hc8 => ?_))
          have hE8' : Ext [] s s8 := Ext.fresh (hE7'.nil.trans hE8) hnw
          refine wp_bind (wp_mono (listNew_gives .as hI8 (hI8.field (hI8.live List.mem_cons_self) hc8
            (by simp [owns_writer])) (hE8'.kind _ _ hk)) (fun r s9 ⟨hI9, hE9, hk9⟩ => ?_))
          have hE9' := hE8'.trans hE9
          have hc9 := hE9.content _ _ (by simp) hc8
          have hkp9 := hE9.kind _ _ (hE8.kind _ _ hkp7)
          have hkt9 := hE9.kind _ _ (hE8.kind _ _ (hk7 t (by simp)))
          cases r with
          | none => exact writer_fails hI9 (kind_of_contents hc9) hE9'
          | some a =>
            refine wp_bind (wp_store (o' := .writer c (some p) (some t) (some a) none none none) (e' := w :: e) hI9
              (hI9.live (by simp)) hc9 rfl (by simp) (by counts)
              (typed_writer.2 ⟨hE9'.kind _ _ hk, KAll.some hkp9, KAll.some hkt9, hk9, KAll.none, KAll.none, KAll.none⟩)
              trivial trivial (fun h => absurd rfl h.2.2.1) (fun s10 hI10 hE10 hc10 => ?_))
            have hE10' : Ext [] s s10 := Ext.fresh (hE9'.nil.trans hE10) hnw
            refine wp_bind (wp_mono (listNew_gives .country hI10 (hI10.field (hI10.live List.mem_cons_self) hc10
              (by simp [owns_writer])) (hE10'.kind _ _ hk)) (fun r s11 ⟨hI11, hE11, hk11⟩ => ?_))
            have hE11' := hE10'.trans hE11
            have hc11 := hE11.content _ _ (by simp) hc10
            have hE911 : Ext [w] s9 s11 := hE10.trans hE11.nil
            cases r with
            | none => exact writer_fails hI11 (kind_of_contents hc11) hE11'
            | some cs =>
              refine wp_bind (wp_store (o' := .writer c (some p) (some t) (some a) (some cs) none none) (e' := w :: e) hI11
                (hI11.live (by simp)) hc11 rfl (by simp) (by counts)
                (typed_writer.2 ⟨hE11'.kind _ _ hk, KAll.some (hE911.kind _ _ hkp9), KAll.some (hE911.kind _ _ hkt9),
                  hk9.ext hE911, hk11, KAll.none, KAll.none⟩)
                trivial trivial (fun h => absurd rfl h.2.2.2) (fun s12 hI12 hE12 hc12 => ?_))
              have hE12' : Ext [] s s12 := Ext.fresh (hE11'.nil.trans hE12) hnw
              refine wp_bind (wp_mono (parseKey_keeps file1 hI12 (fun s' hI' hE' =>
                hI'.field (hI'.live List.mem_cons_self) (hE'.content _ _ (by simp) hc12) (by simp [owns_writer])))
                (fun r s13 ⟨hE13, hI13, hk13⟩ => ?_))
              have hE13' := hE12'.trans hE13
              have hc13 := hE13.content _ _ (by simp) hc12
              cases r with
              | none => exact writer_fails (hI13 rfl) (kind_of_contents hc13) hE13'
              | some k1 =>
                obtain ⟨hI13, hk13⟩ := hk13 k1 rfl
                obtain ⟨t1, t2, t3, t4, t5, _, _⟩ := typed_writer.1 (hI13.typed (hI13.live (by simp)) hc13)
                refine wp_bind (wp_store (o' := .writer c (some p) (some t) (some a) (some cs) k1 none) (e' := w :: e)
                  hI13 (hI13.live (by simp)) hc13 rfl (by simp) (by counts)
                  (typed_writer.2 ⟨t1, t2, t3, t4, t5, hk13, KAll.none⟩)
                  trivial trivial (fun h => h) (fun s14 hI14 hE14 hc14 => ?_))
                have hE14' : Ext [] s s14 := Ext.fresh (hE13'.nil.trans hE14) hnw
                refine wp_bind (wp_mono (parseKey_keeps file2 hI14 (fun s' hI' hE' =>
                  hI'.field (hI'.live List.mem_cons_self) (hE'.content _ _ (by simp) hc14) (by simp [owns_writer])))
                  (fun r s15 ⟨hE15, hI15, hk15⟩ => ?_))
                have hE15' := hE14'.trans hE15
                have hc15 := hE15.content _ _ (by simp) hc14
                cases r with
                | none => exact writer_fails (hI15 rfl) (kind_of_contents hc15) hE15'
                | some k2 =>
                  obtain ⟨hI15, hk15⟩ := hk15 k2 rfl
                  obtain ⟨t1, t2, t3, t4, t5, t6, _⟩ := typed_writer.1 (hI15.typed (hI15.live (by simp)) hc15)
                  refine wp_bind (wp_store (o' := .writer c (some p) (some t) (some a) (some cs) k1 k2) (e' := w :: e)
                    hI15 (hI15.live (by simp)) hc15 rfl (by simp) (by counts)
                    (typed_writer.2 ⟨t1, t2, t3, t4, t5, t6, hk15⟩)
                    trivial trivial (fun h => h) (fun s16 hI16 hE16 hc16 => ?_))
                  have hE16' : Ext [] s s16 := Ext.fresh (hE15'.nil.trans hE16) hnw
                  refine wp_pure ⟨Gives.some hI16 hE16' (kind_of_contents hc16), fun i hi => ?_⟩
                  simp at hi; subst hi
                  exact ⟨_, hc16, by simp, by simp, by simp, by simp⟩

theorem writer_fields {w : Nat} (hI : Inv A s e) (hw : w ∈ e) (hk : kindOf s w = some .writer) (hc : Complete s w) :
    ∃ c p n a cs k1 k2, contents s w = some (.writer c (some p) (some n) (some a) (some cs) k1 k2) ∧
      kindOf s c = some .ctx ∧ 0 < refs s c ∧ (Anchor e s p ∧ kindOf s p = some .pool) ∧
      (Anchor e s a ∧ kindOf s a = some (.list .as)) ∧ (Anchor e s cs ∧ kindOf s cs = some (.list .country)) ∧
      w ≠ a ∧ w ≠ cs := by
  obtain ⟨o, ho, hok⟩ := contents_of_kind hk
  have hl := hI.live hw
  obtain ⟨o', ho', hf⟩ := hc
  rw [ho] at ho'
  cases ho'
  cases o with
  | writer c pool networks asns countries k1 k2 =>
    obtain ⟨h1, h2, h3, h4⟩ := hf
    cases pool with
    | none => exact absurd rfl h1
    | some p =>
    cases networks with
    | none => exact absurd rfl h2
    | some n =>
    cases asns with
    | none => exact absurd rfl h3
    | some a =>
    cases countries with
    | none => exact absurd rfl h4
    | some cs =>
      obtain ⟨tc, tp, tn, ta, tcs, _⟩ := typed_writer.1 (hI.typed hl ho)
      have hne : ∀ i k, kindOf s i = some k → k ≠ .writer → w ≠ i := by
        intro i k hi hkk h; subst h
        rw [hk] at hi
        cases hi
        exact hkk rfl
      have tp := tp p (by simp)
      have ta := ta a (by simp)
      have tcs := tcs cs (by simp)
      exact ⟨c, p, n, a, cs, k1, k2, ho, tc, hI.field hl ho (by simp [owns_writer]),
        ⟨.inr ⟨w, hw, hne _ _ tp (by simp), _, ho, by simp [owns_writer]⟩, tp⟩,
        ⟨.inr ⟨w, hw, hne _ _ ta (by simp), _, ho, by simp [owns_writer]⟩, ta⟩,
        ⟨.inr ⟨w, hw, hne _ _ tcs (by simp), _, ho, by simp [owns_writer]⟩, tcs⟩, hne _ _ ta (by simp), hne _ _ tcs (by simp)⟩
  | _ => cases hok

theorem writerSetText_keeps {w : Nat} (len : Nat) (found : Bool) (hI : Inv A s e) (hw : w ∈ e)
    (hk : kindOf s w = some .writer) (hc : Complete s w) :
    wp A (writerSetText w len found) s (fun _ s' => Inv A s' e ∧ ∃ t, (∀ i ∈ t, Changes s (.setText w len found) i) ∧
      Ext t s s') := by
  obtain ⟨c, p, n, a, cs, k1, k2, ho, tc, hlc, ⟨hap, hkp⟩, _⟩ := writer_fields hI hw hk hc
  unfold writerSetText
  refine wp_bind (wp_look (hI.live hw) ho ?_)
  refine wp_bind (wp_mono (poolAdd_keeps len found hI hap hkp) (fun _ s1 ⟨hI1, hE1⟩ => ?_))
  exact wp_pure ⟨hI1, [p], fun i hi => by simp at hi; subst hi; exact ⟨_, _, _, _, _, _, ho⟩, hE1⟩

theorem writerAddAs_gives {w : Nat} (number : Nat) (hI : Inv A s e) (hw : w ∈ e)
    (hk : kindOf s w = some .writer) (hc : Complete s w) :
    wp A (writerAddAs w number) s (fun r s' => ∃ t, (∀ i ∈ t, Changes s (.addAs w number) i) ∧
      Gives A e t s (.item .as) r.1 s') := by
  obtain ⟨c, p, n, a, cs, k1, k2, ho, tc, hlc, _, ⟨haa, hka⟩, _⟩ := writer_fields hI hw hk hc
  unfold writerAddAs
  refine wp_bind (wp_look (hI.live hw) ho ?_)
  refine wp_bind (wp_mono (itemNew_gives .as number hI hlc tc) (fun r s1 ⟨hI1, hE1, hk1⟩ => ?_))
  have hch : ∀ i ∈ [a], Changes s (.addAs w number) i := fun i hi => by
    simp at hi; subst hi; exact ⟨_, _, _, _, _, _, ho⟩
  cases r with
  | none => exact wp_pure ⟨[a], hch, Gives.none hI1 hE1.nil⟩
  | some x =>
    refine wp_bind (wp_mono (listAppend_keeps .as hI1 ((haa.nil hE1).mono (fun y hy => List.mem_append_right _ hy))
      (hE1.kind _ _ hka) (by simp) (hk1 x (by simp))) (fun ok s2 ⟨hI2, hE2⟩ => ?_))
    exact wp_pure ⟨[a], hch, hI2, hE1.nil.trans hE2, hk1.ext hE2⟩

theorem writerAddCountry_gives {w : Nat} (code : CStr) (hI : Inv A s e) (hw : w ∈ e)
    (hk : kindOf s w = some .writer) (hc : Complete s w) :
    wp A (writerAddCountry w code) s (fun r s' => ∃ t, (∀ i ∈ t, Changes s (.addCountry w code) i) ∧
      Gives A e t s (.item .country) r.1 s') := by
  obtain ⟨c, p, n, a, cs, k1, k2, ho, tc, hlc, _, _, ⟨haa, hka⟩, _⟩ := writer_fields hI hw hk hc
  unfold writerAddCountry
  refine wp_bind (wp_look (hI.live hw) ho ?_)
  refine wp_bind (wp_mono (countryNew_gives code hI hlc tc) (fun r s1 ⟨hI1, hE1, hk1⟩ => ?_))
  have hch : ∀ i ∈ [cs], Changes s (.addCountry w code) i := fun i hi => by
    simp at hi; subst hi; exact ⟨_, _, _, _, _, _, ho⟩
  cases r with
  | none => exact wp_pure ⟨[cs], hch, Gives.none hI1 hE1.nil⟩
  | some x =>
    refine wp_bind (wp_mono (listAppend_keeps .country hI1 ((haa.nil hE1).mono (fun y hy => List.mem_append_right _ hy))
      (hE1.kind _ _ hka) (by simp) (hk1 x (by simp))) (fun ok s2 ⟨hI2, hE2⟩ => ?_))
    exact wp_pure ⟨[cs], hch, hI2, hE1.nil.trans hE2, hk1.ext hE2⟩

/-! ### Python -/

theorem pyDbInit_keeps {c o : Nat} (a : List (Nat × Bool)) (cs : List (CStr × Bool)) (hI : Inv A s e) (hc : c ∈ e)
    (hk : kindOf s c = some .ctx) (ho : o ∈ e) (hco : contents s o = some (.pyDb none none)) :
    wp A (pyDbInit c o a cs) s (fun r s' => Inv A s' e ∧ Ext [o] s s' ∧ (r = true → Complete s' o)) := by
  unfold pyDbInit
  refine wp_bind (wp_look (hI.live ho) hco ?_)
  simp only
  refine wp_bind (wp_mono (malloc_gives hI) (fun path s1 ⟨hI1, hE1, hk1⟩ => ?_))
  refine wp_bind (wp_store (o' := .pyDb none path) (e' := e) hI1 (hI1.live (by simp [ho])) (hE1.content _ _ (by simp) hco)
    rfl (by simp) (by counts) (typed_pyDb.2 ⟨KAll.none, hk1⟩) trivial (fun _ h => by cases h) (fun h => absurd rfl h)
    (fun s2 hI2 hE2 hc2 => ?_))
  have hE2' : Ext [o] s s2 := hE1.nil.trans hE2
  cases path with
  | none => exact wp_pure ⟨hI2, hE2', fun h => by cases h⟩
  | some pth =>
    simp only
    refine wp_bind (wp_mono (malloc_gives hI2) (fun f s3 ⟨hI3, hE3, hk3⟩ => ?_))
    have hE3' : Ext [o] s s3 := hE2'.trans hE3.nil
    cases f with
    | none => exact wp_pure ⟨hI3, hE3', fun h => by cases h⟩
    | some f =>
      simp only
      refine wp_bind (wp_mono (dbNew_gives a cs hI3 (hI3.live (by simp [hc])) (hE3'.kind _ _ hk))
        (fun d s4 ⟨⟨hI4, hE4, hk4⟩, hcm⟩ => ?_))
      have hE4' : Ext [o] s s4 := hE3'.trans hE4.nil
      have hkf : kindOf s4 f = some .block := hE4.kind _ _ (hk3 f (by simp))
      cases d with
      | none =>
        exact wp_bind (freeBlock_drops A _ _ _ _ hI4 hkf (fun s5 hI5 hE5 =>
          wp_pure ⟨hI5, hE4'.trans hE5.nil, fun h => by cases h⟩))
      | some d =>
        simp only
        refine wp_bind (wp_store (o' := .pyDb (some d) (some pth)) (e' := f :: e) hI4 (hI4.live (by simp [ho]))
          (hE4.content _ _ (by simp) (hE3.content _ _ (by simp) hc2)) rfl (by simp) (by counts)
          (typed_pyDb.2 ⟨hk4, ((hk1.ext hE2).ext hE3).ext hE4⟩) trivial (fun i hi => hcm i hi) (fun _ h => by cases h)
          (fun s5 hI5 hE5 hc5 => ?_))
        have hE5' : Ext [o] s s5 := hE4'.trans hE5
        refine wp_bind (freeBlock_drops A _ _ _ _ hI5 (hE5.kind _ _ hkf) (fun s6 hI6 hE6 => ?_))
        exact wp_pure ⟨hI6, hE5'.trans hE6.nil, fun _ => ⟨_, hE6.content _ _ (by simp) hc5, fun h => by cases h⟩⟩

theorem pyDbNew_gives {c : Nat} (a : List (Nat × Bool)) (cs : List (CStr × Bool)) (hI : Inv A s e) (hc : c ∈ e)
    (hk : kindOf s c = some .ctx) :
    wp A (pyDbNew c a cs) s (fun r s' => Gives A e [] s .pyDb r s' ∧ ∀ i ∈ r.toList, Complete s' i) := by
  unfold pyDbNew
  refine wp_bind (wp_chance hI (fun r s1 hI1 hs1 => ?_))
  have hE1 : Ext [] s s1 := Ext.same hs1
  cases r with
  | true => exact wp_pure ⟨Gives.none hI1 hE1, fun _ h => by cases h⟩
  | false =>
    simp only [Bool.false_eq_true, if_false]
    refine wp_bind (wp_create (o := .pyDb none none) (e := e) hI1 (typed_pyDb.2 ⟨KAll.none, KAll.none⟩) trivial
      (fun _ h => by cases h) (fun o s2 _ hI2 hE2 hc2 hn2 => ?_))
    have hE2' := hE1.trans hE2
    refine wp_bind (wp_mono (pyDbInit_keeps a cs hI2 (List.mem_cons_of_mem _ hc) (hE2'.kind _ _ hk) List.mem_cons_self hc2)
      (fun r s3 ⟨hI3, hE3, h3⟩ => ?_))
    have hE3' : Ext [] s s3 := Ext.fresh (hE2'.nil.trans hE3) (hE1.absent hn2)
    have hk3 : kindOf s3 o = some .pyDb := hE3.kind _ _ (kind_of_contents hc2)
    cases r with
    | true => exact wp_pure ⟨Gives.some hI3 hE3' hk3, fun i hi => by simp at hi; subst hi; exact h3 rfl⟩
    | false =>
      simp only [Bool.false_eq_true, if_false]
      refine wp_bind (pyDbUnref_drops A _ _ _ _ hI3 hk3 (fun s4 hI4 hE4 => ?_))
      exact wp_pure ⟨Gives.none hI4 (hE3'.trans hE4), fun _ h => by cases h⟩

theorem pyCountries_keeps {c l : Nat} (hc : c ∈ e) : ∀ (codes : List (Option CStr)) (s : OState), Inv A s (l :: e) →
    kindOf s c = some .ctx → kindOf s l = some (.list .country) →
      wp A (pyCountries c l codes) s (fun r s' => Ext [l] s s' ∧ (r = true → Inv A s' (l :: e)) ∧
        (r = false → Inv A s' e)) := by
  intro codes
  induction codes with
  | nil => intro s hI _ _; exact wp_pure ⟨Ext.refl _ _, fun _ => hI, fun h => by cases h⟩
  | cons x rest ih =>
    intro s hI hk hl
    cases x with
    | none =>
      show wp A (listUnref .country l >>= fun _ => pure false) s _
      exact wp_bind (listUnref_drops .country A _ _ _ _ hI hl (fun s1 hI1 hE1 =>
        wp_pure ⟨hE1.nil, fun h => (by cases h), fun _ => hI1⟩))
    | some code =>
      unfold pyCountries
      refine wp_bind (wp_mono (countryNew_gives code hI (hI.live (by simp [hc])) hk) (fun r s1 ⟨hI1, hE1, hk1⟩ => ?_))
      cases r with
      | none =>
        exact wp_bind (listUnref_drops .country A _ _ _ _ hI1 (hE1.kind _ _ hl) (fun s2 hI2 hE2 =>
          wp_pure ⟨(hE1.trans hE2).nil, fun h => (by cases h), fun _ => hI2⟩))
      | some i =>
        simp only
        refine wp_bind (wp_mono (listAppend_keeps .country hI1 (.inl (by simp)) (hE1.kind _ _ hl) (by simp)
          (hk1 i (by simp))) (fun ok s2 ⟨hI2, hE2⟩ => ?_))
        have hE2' : Ext [l] s s2 := hE1.nil.trans hE2
        cases ok with
        | true =>
          simp only [if_true]
          refine wp_bind (itemUnref_drops .country A _ _ _ _ hI2 (hE2.kind _ _ (hk1 i (by simp))) (fun s3 hI3 hE3 => ?_))
          have hE3' : Ext [l] s s3 := hE2'.trans hE3.nil
          exact wp_mono (ih s3 hI3 (hE3'.kind _ _ hk) (hE3'.kind _ _ hl))
            (fun r s4 ⟨h1, h2, h3⟩ => ⟨hE3'.trans h1, h2, h3⟩)
        | false =>
          simp only [Bool.false_eq_true, if_false]
          refine wp_bind (listUnref_drops .country A _ (i :: e) _ _ (hI2.congr (by counts)) (hE2'.kind _ _ hl)
            (fun s3 hI3 hE3 => ?_))
          refine wp_bind (itemUnref_drops .country A _ _ _ _ hI3 (hE3.kind _ _ (hE2.kind _ _ (hk1 i (by simp))))
            (fun s4 hI4 hE4 => ?_))
          exact wp_pure ⟨(hE2'.trans hE3.nil).trans hE4.nil, fun h => (by cases h), fun _ => hI4⟩

theorem pyAsns_keeps {c l : Nat} (hc : c ∈ e) : ∀ (asns : List (Option Nat)) (s : OState), Inv A s (l :: e) →
    kindOf s c = some .ctx → kindOf s l = some (.list .as) →
      wp A (pyAsns c l asns) s (fun r s' => Ext [l] s s' ∧ (r = true → Inv A s' (l :: e)) ∧
        (r = false → Inv A s' e)) := by
  intro asns
  induction asns with
  | nil => intro s hI _ _; exact wp_pure ⟨Ext.refl _ _, fun _ => hI, fun h => by cases h⟩
  | cons x rest ih =>
    intro s hI hk hl
    cases x with
    | none =>
      show wp A (listUnref .as l >>= fun _ => pure false) s _
      exact wp_bind (listUnref_drops .as A _ _ _ _ hI hl (fun s1 hI1 hE1 =>
        wp_pure ⟨hE1.nil, fun h => (by cases h), fun _ => hI1⟩))
    | some number =>
      unfold pyAsns
      refine wp_bind (wp_mono (itemNew_gives .as number hI (hI.live (by simp [hc])) hk) (fun r s1 ⟨hI1, hE1, hk1⟩ => ?_))
      cases r with
      | none =>
        exact wp_bind (listUnref_drops .as A _ _ _ _ hI1 (hE1.kind _ _ hl) (fun s2 hI2 hE2 =>
          wp_pure ⟨(hE1.trans hE2).nil, fun h => (by cases h), fun _ => hI2⟩))
      | some i =>
        simp only
        refine wp_bind (wp_mono (listAppend_keeps .as hI1 (.inl (by simp)) (hE1.kind _ _ hl) (by simp)
          (hk1 i (by simp))) (fun ok s2 ⟨hI2, hE2⟩ => ?_))
        have hE2' : Ext [l] s s2 := hE1.nil.trans hE2
        cases ok with
        | true =>
          simp only [if_true]
          refine wp_bind (itemUnref_drops .as A _ _ _ _ hI2 (hE2.kind _ _ (hk1 i (by simp))) (fun s3 hI3 hE3 => ?_))
          have hE3' : Ext [l] s s3 := hE2'.trans hE3.nil
          exact wp_mono (ih s3 hI3 (hE3'.kind _ _ hk) (hE3'.kind _ _ hl))
            (fun r s4 ⟨h1, h2, h3⟩ => ⟨hE3'.trans h1, h2, h3⟩)
        | false =>
          simp only [Bool.false_eq_true, if_false]
          refine wp_bind (listUnref_drops .as A _ (i :: e) _ _ (hI2.congr (by counts)) (hE2'.kind _ _ hl)
            (fun s3 hI3 hE3 => ?_))
          refine wp_bind (itemUnref_drops .as A _ _ _ _ hI3 (hE3.kind _ _ (hE2.kind _ _ (hk1 i (by simp))))
            (fun s4 hI4 hE4 => ?_))
          exact wp_pure ⟨(hE2'.trans hE3.nil).trans hE4.nil, fun h => (by cases h), fun _ => hI4⟩

theorem Ext.pair {s s1 s2 : OState} {x l : Nat} (h1 : Ext [] s s1) (h2 : Ext [l] s1 s2) (hn : contents s l = none) :
    Ext [x] s s2 := by
  exact (Ext.fresh (t := []) (h1.nil.trans h2) hn).nil

theorem pySetCountries_keeps {c x : Nat} (codes : Option (List (Option CStr))) (hI : Inv A s e) (hc : c ∈ e)
    (hk : kindOf s c = some .ctx) (hx : x ∈ e) (hkx : kindOf s x = some .enum) :
    wp A (pySetCountries c x codes) s (fun _ s' => Inv A s' e ∧ Ext [x] s s') := by
  unfold pySetCountries
  cases codes with
  | none => exact wp_pure ⟨hI, Ext.refl _ _⟩
  | some codes =>
    simp only
    refine wp_bind (wp_mono (listNew_gives_new .country hI (hI.live hc) hk) (fun r s1 ⟨⟨hI1, hE1, hk1⟩, hn1⟩ => ?_))
    cases r with
    | none => exact wp_pure ⟨hI1, hE1.nil⟩
    | some l =>
      have hl := hk1 l (by simp)
      simp only
      refine wp_bind (wp_mono (pyCountries_keeps hc codes s1 hI1 (hE1.kind _ _ hk) hl) (fun ok s2 ⟨hE2, hy, hn⟩ => ?_))
      have hE2' : Ext [x] s s2 := Ext.pair hE1 hE2 (hn1 l (by simp))
      cases ok with
      | false => exact wp_pure ⟨hn rfl, hE2'⟩
      | true =>
        simp only [if_true]
        refine wp_bind (wp_mono (enumSetCountries_keeps (hy rfl) (List.mem_cons_of_mem _ hx) (hE2'.kind _ _ hkx)
          List.mem_cons_self (hE2.kind _ _ hl)) (fun _ s3 ⟨hI3, hE3⟩ => ?_))
        refine wp_bind (listUnref_drops .country A _ _ _ _ hI3 (hE3.kind _ _ (hE2.kind _ _ hl)) (fun s4 hI4 hE4 => ?_))
        exact wp_pure ⟨hI4, (hE2'.trans hE3).trans hE4.nil⟩

theorem pySetAsns_keeps {c x : Nat} (asns : Option (List (Option Nat))) (hI : Inv A s e) (hc : c ∈ e)
    (hk : kindOf s c = some .ctx) (hx : x ∈ e) (hkx : kindOf s x = some .enum) :
    wp A (pySetAsns c x asns) s (fun _ s' => Inv A s' e ∧ Ext [x] s s') := by
  unfold pySetAsns
  cases asns with
  | none => exact wp_pure ⟨hI, Ext.refl _ _⟩
  | some asns =>
    simp only
    refine wp_bind (wp_mono (listNew_gives_new .as hI (hI.live hc) hk) (fun r s1 ⟨⟨hI1, hE1, hk1⟩, hn1⟩ => ?_))
    cases r with
    | none => exact wp_pure ⟨hI1, hE1.nil⟩
    | some l =>
      have hl := hk1 l (by simp)
      simp only
      refine wp_bind (wp_mono (pyAsns_keeps hc asns s1 hI1 (hE1.kind _ _ hk) hl) (fun ok s2 ⟨hE2, hy, hn⟩ => ?_))
      have hE2' : Ext [x] s s2 := Ext.pair hE1 hE2 (hn1 l (by simp))
      cases ok with
      | false => exact wp_pure ⟨hn rfl, hE2'⟩
      | true =>
        simp only [if_true]
        refine wp_bind (wp_mono (enumSetAsns_keeps (hy rfl) (List.mem_cons_of_mem _ hx) (hE2'.kind _ _ hkx)
          List.mem_cons_self (hE2.kind _ _ hl)) (fun _ s3 ⟨hI3, hE3⟩ => ?_))
        refine wp_bind (listUnref_drops .as A _ _ _ _ hI3 (hE3.kind _ _ (hE2.kind _ _ hl)) (fun s4 hI4 hE4 => ?_))
        exact wp_pure ⟨hI4, (hE2'.trans hE3).trans hE4.nil⟩

theorem py_fields {o : Nat} (hI : Inv A s e) (ho : o ∈ e) (hk : kindOf s o = some .pyDb) (hc : Complete s o) :
    ∃ d path, contents s o = some (.pyDb (some d) path) ∧ Anchor e s d ∧ kindOf s d = some .db ∧ Complete s d := by
  obtain ⟨x, hx, hok⟩ := contents_of_kind hk
  obtain ⟨x', hx', hf⟩ := hc
  rw [hx] at hx'
  cases hx'
  cases x with
  | pyDb db path =>
    cases db with
    | none => exact absurd rfl hf
    | some d =>
      obtain ⟨td, _⟩ := typed_pyDb.1 (hI.typed (hI.live ho) hx)
      have td := td d (by simp)
      refine ⟨d, path, hx, .inr ⟨o, ho, ?_, _, hx, by simp [owns_pyDb]⟩, td, ?_⟩
      · intro h; subst h
        rw [hk] at td
        cases td
      · have hr : ∀ i ∈ (some d : Option Nat).toList, Complete s i := hI.refers (hI.live ho) hx
        exact hr d (by simp)
  | _ => cases hok

theorem pyLookup_gives {o : Nat} (leaf : Option Bool) (hI : Inv A s e) (ho : o ∈ e) (hk : kindOf s o = some .pyDb)
    (hc : Complete s o) : wp A (Loc.Objects.pyLookup o leaf) s (Gives A e [] s (.item .network)) := by
  obtain ⟨d, path, hx, ha, hkd, hcd⟩ := py_fields hI ho hk hc
  unfold Loc.Objects.pyLookup
  refine wp_bind (wp_look (hI.live ho) hx ?_)
  exact dbLookup_gives leaf hI ha hkd hcd

theorem pySearchNetworks_gives {c o : Nat} (codes : Option (List (Option CStr))) (asns : Option (List (Option Nat)))
    (hI : Inv A s e) (hc : c ∈ e) (hkc : kindOf s c = some .ctx) (ho : o ∈ e) (hk : kindOf s o = some .pyDb)
    (hcm : Complete s o) : wp A (pySearchNetworks c o codes asns) s (fun r s' => Ext [] s s' ∧
      (r = none → Inv True s' e) ∧ ∀ x, r = some x → Inv A s' (x :: e) ∧ kindOf s' x = some .enum) := by
  obtain ⟨d, path, hx, ha, hkd, hcd⟩ := py_fields hI ho hk hcm
  unfold pySearchNetworks
  refine wp_bind (wp_look (hI.live ho) hx ?_)
  simp only
  refine wp_bind (wp_mono (enumNew_gives_new .networks hI ha hkd hcd) (fun r s1 ⟨⟨hI1, hE1, hk1⟩, hn1⟩ => ?_))
  cases r with
  | none => exact wp_pure ⟨hE1, fun _ => hI1.weaken, fun x h => by cases h⟩
  | some x =>
    have hkx := hk1 x (by simp)
    have hnx := hn1 x (by simp)
    simp only
    refine wp_bind (wp_mono (pySetCountries_keeps codes hI1 (by simp [hc]) (hE1.kind _ _ hkc) (by simp) hkx)
      (fun ok s2 ⟨hI2, hE2⟩ => ?_))
    have hE2' : Ext [] s s2 := Ext.fresh (hE1.nil.trans hE2) hnx
    cases ok with
    | false => exact wp_pure ⟨hE2', fun _ => hI2.weaken.lose trivial, fun x h => by cases h⟩
    | true =>
      simp only [if_true]
      refine wp_bind (wp_mono (pySetAsns_keeps asns hI2 (by simp [hc]) (hE2'.kind _ _ hkc) (by simp) (hE2.kind _ _ hkx))
        (fun ok s3 ⟨hI3, hE3⟩ => ?_))
      have hE3' : Ext [] s s3 := Ext.fresh (hE2'.nil.trans hE3) hnx
      cases ok with
      | false => exact wp_pure ⟨hE3', fun _ => hI3.weaken.lose trivial, fun x h => by cases h⟩
      | true => exact wp_pure ⟨hE3', fun h => (by cases h), fun y hy => by
          cases hy; exact ⟨hI3, hE3.kind _ _ (hE2.kind _ _ hkx)⟩⟩

theorem pyWriterInit_gives {c pyNone : Nat} {key1 key2 : Option Nat} (hI : Inv A s e) (hc : 0 < refs s c)
    (hk : kindOf s c = some .ctx) (h1 : key1 ≠ some pyNone) (h2 : key2 ≠ some pyNone) :
    wp A (pyWriterInit c pyNone key1 key2) s (fun r s' => Gives A e [] s .writer r s' ∧ ∀ i ∈ r.toList, Complete s' i) := by
  unfold pyWriterInit pyIgnoreNone
  rw [if_neg h1, if_neg h2]
  exact wp_bind (wp_pure (wp_bind (wp_pure (writerNew_gives _ _ hI hc hk))))

end

/-! ### Whole histories -/

theorem wp_run {α : Type} {A : Prop} {m : OM α} {s : OState} {Q : α → OState → Prop} (h : wp A m s Q) :
    wp A m s (fun a s' => m s = .ok (a, s') ∧ Q a s') := by
  unfold wp at *
  cases hm : m s with
  | error f => rw [hm] at h; cases f <;> exact h
  | ok p => rw [hm] at h; exact ⟨rfl, h⟩

/-- The types programs have pointers to -/
def OKind.pub : OKind → Bool
  | .block => false
  | .pool => false
  | .node => false
  | .tree => false
  | _ => true

/-- A finished object of a type programs have pointers to -/
def Usable (s : OState) (i : Nat) : Prop := Complete s i ∧ ∃ k, kindOf s i = some k ∧ k.pub = true

def WInv (A : Prop) (w : OWorld) : Prop := Inv A w.state w.held ∧ ∀ i ∈ w.held, Usable w.state i

theorem Usable.ext {t : List Nat} {s s' : OState} {i : Nat} (h : Usable s i) (hE : Ext t s s') : Usable s' i := by
  obtain ⟨hc, k, hk, hb⟩ := h
  exact ⟨hE.full _ hc, k, hE.kind _ _ hk, hb⟩

theorem usable_of {s : OState} {i : Nat} {k : OKind} (hk : kindOf s i = some k) (hb : k.pub = true) (h1 : k ≠ .db)
    (h2 : k ≠ .writer) (h3 : k ≠ .pyDb) : Usable s i := by
  obtain ⟨o, ho, hok⟩ := contents_of_kind hk
  refine ⟨⟨o, ho, ?_⟩, k, hk, hb⟩
  subst hok
  cases o with
  | db => exact absurd rfl h1
  | writer => exact absurd rfl h2
  | pyDb => exact absurd rfl h3
  | _ => trivial

/-- What a call leaves behind -/
def After (A : Prop) (w : OWorld) (op : OOp) (g : List Nat) (s' : OState) : Prop :=
  (∃ t, (∀ i ∈ t, Changes w.state op i) ∧ Ext t w.state s') ∧ Inv A s' (heldAfter w.held g op) ∧ ∀ i ∈ g, Usable s' i

theorem After.given {A : Prop} {w : OWorld} {op : OOp} {t : List Nat} {k : OKind} {m : OM (Option Nat)}
    (h : wp A m w.state (Gives A w.held t w.state k)) (ht : ∀ i ∈ t, Changes w.state op i)
    (hh : ∀ g, heldAfter w.held g op = g ++ w.held) (hb : k.pub = true) (h1 : k ≠ .db) (h2 : k ≠ .writer) (h3 : k ≠ .pyDb) :
    wp A (do let r ← m; pure r.toList) w.state (After A w op) := by
  refine wp_bind (wp_mono h (fun r s1 ⟨hI, hE, hk⟩ => ?_))
  exact wp_pure ⟨⟨t, ht, hE⟩, by rw [hh]; exact hI, fun i hi => usable_of (hk i hi) hb h1 h2 h3⟩

theorem After.complete {A : Prop} {w : OWorld} {op : OOp} {t : List Nat} {k : OKind} {m : OM (Option Nat)}
    (h : wp A m w.state (fun r s' => Gives A w.held t w.state k r s' ∧ ∀ i ∈ r.toList, Complete s' i))
    (ht : ∀ i ∈ t, Changes w.state op i)
    (hh : ∀ g, heldAfter w.held g op = g ++ w.held) (hb : k.pub = true) :
    wp A (do let r ← m; pure r.toList) w.state (After A w op) := by
  refine wp_bind (wp_mono h (fun r s1 ⟨⟨hI, hE, hk⟩, hc⟩ => ?_))
  exact wp_pure ⟨⟨t, ht, hE⟩, by rw [hh]; exact hI, fun i hi => ⟨hc i hi, k, hk i hi, hb⟩⟩

theorem After.kept {α : Type} {A : Prop} {w : OWorld} {op : OOp} {t : List Nat} {m : OM α}
    (h : wp A m w.state (fun _ s' => Inv A s' w.held ∧ Ext t w.state s')) (ht : ∀ i ∈ t, Changes w.state op i)
    (hh : ∀ g, heldAfter w.held g op = g ++ w.held) : wp A (do let _ ← m; pure []) w.state (After A w op) := by
  refine wp_bind (wp_mono h (fun r s1 ⟨hI, hE⟩ => ?_))
  exact wp_pure ⟨⟨t, ht, hE⟩, by rw [hh]; exact hI, fun i hi => by cases hi⟩

theorem After.dropped {A : Prop} {w : OWorld} {k : OKind} {i : Nat} {f : Nat → OM Unit} (hw : WInv A w) (hp : Holds w k i)
    (hf : Drops f k) : wp A (do f i; pure []) w.state (After A w (.drop k i)) := by
  have hI : Inv A w.state (i :: w.held.erase i) := hw.1.perm (List.perm_cons_erase hp.1)
  refine wp_bind (hf A _ _ _ _ hI hp.2 (fun s1 hI1 hE1 => ?_))
  exact wp_pure ⟨⟨[], (fun _ h => by cases h), hE1⟩, hI1, fun i hi => by cases hi⟩

theorem mem_nil {P : Nat → Prop} : ∀ i ∈ ([] : List Nat), P i := fun _ h => by cases h

theorem mem_one {P : Nat → Prop} {x : Nat} (h : P x) : ∀ i ∈ [x], P i := fun i hi => by simp at hi; subst hi; exact h

theorem perform_spec {A : Prop} {w : OWorld} {op : OOp} (hw : WInv A w) (hp : OProper w op) (ht : A ∨ Tidy w op) :
    wp A (perform op) w.state (After A w op) := by
  have hI := hw.1
  have hcm : ∀ {k i}, Holds w k i → Complete w.state i := fun h => (hw.2 _ h.1).1
  have hlv : ∀ {k i}, Holds w k i → 0 < refs w.state i := fun h => hI.live h.1
  cases op with
  | newCtx => exact After.given (ctxNew_gives hI) mem_nil (fun _ => rfl) rfl (by decide) (by decide) (by decide)
  | take i =>
    obtain ⟨hc, k, hk, hb⟩ := hw.2 i hp
    show wp A (incr i >>= fun _ => pure [i]) w.state _
    refine wp_bind (wp_incr hI (hI.live hp) hk (fun h => by subst h; cases hb) (fun s1 hI1 hE1 => ?_))
    refine wp_pure ⟨⟨[], mem_nil, hE1⟩, hI1, fun j hj => ?_⟩
    simp at hj; subst hj
    exact Usable.ext ⟨hc, k, hk, hb⟩ hE1
  | drop k i =>
    cases k with
    | ctx => exact After.dropped hw hp ctxUnref_drops
    | item k => exact After.dropped hw hp (itemUnref_drops k)
    | list k => exact After.dropped hw hp (listUnref_drops k)
    | db => exact After.dropped hw hp dbUnref_drops
    | enum => exact After.dropped hw hp enumUnref_drops
    | writer => exact After.dropped hw hp writerUnref_drops
    | pyDb => exact After.dropped hw hp pyDbUnref_drops
    | pyObj => exact After.dropped hw hp pyUnref_drops
    | block =>
      obtain ⟨_, k, hk, hb⟩ := hw.2 i hp.1
      rw [hp.2] at hk
      cases hk
      cases hb
    | pool =>
      obtain ⟨_, k, hk, hb⟩ := hw.2 i hp.1
      rw [hp.2] at hk
      cases hk
      cases hb
    | node =>
      obtain ⟨_, k, hk, hb⟩ := hw.2 i hp.1
      rw [hp.2] at hk
      cases hk
      cases hb
    | tree =>
      obtain ⟨_, k, hk, hb⟩ := hw.2 i hp.1
      rw [hp.2] at hk
      cases hk
      cases hb
  | newCountry ctx code =>
    exact After.given (countryNew_gives code hI (hlv hp) hp.2) mem_nil (fun _ => rfl) rfl (by decide) (by decide) (by decide)
  | newAs ctx number =>
    exact After.given (itemNew_gives .as number hI (hlv hp) hp.2) mem_nil (fun _ => rfl) rfl (by decide) (by decide) (by decide)
  | newNetwork ctx =>
    exact After.given (itemNew_gives .network 0 hI (hlv hp) hp.2) mem_nil (fun _ => rfl) rfl (by decide) (by decide) (by decide)
  | setName k i => exact After.kept (itemSetName_keeps k hI (.inl hp.1) hp.2) (mem_one rfl) (fun _ => rfl)
  | newList k ctx =>
    exact After.given (listNew_gives k hI (hlv hp) hp.2) mem_nil (fun _ => rfl) rfl (by simp) (by simp) (by simp)
  | append k l x =>
    exact After.kept (listAppend_keeps k hI (.inl hp.2.1.1) hp.2.1.2 hp.2.2.1 hp.2.2.2) (mem_one rfl) (fun _ => rfl)
  | clear k l => exact After.kept (listClear_keeps k hI (.inl hp.1) hp.2) (mem_one rfl) (fun _ => rfl)
  | get k l n =>
    exact After.given (listGet_gives k n hI (.inl hp.1) hp.2) mem_nil (fun _ => rfl) rfl (by simp) (by simp) (by simp)
  | contains k l key => exact After.kept (listContainsKey_keeps k key hI (.inl hp.1) hp.2) mem_nil (fun _ => rfl)
  | sort k l => exact After.kept (listSort_keeps k hI (.inl hp.1) hp.2) (mem_one rfl) (fun _ => rfl)
  | openDb ctx a cs => exact After.complete (dbNew_gives a cs hI (hlv hp) hp.2) mem_nil (fun _ => rfl) rfl
  | getAs d number =>
    exact After.given (dbGetAs_gives number hI (.inl hp.1) hp.2 (hcm hp)) mem_nil (fun _ => rfl) rfl (by decide) (by decide) (by decide)
  | getCountry d code =>
    exact After.given (dbGetCountry_gives code hI (.inl hp.1) hp.2 (hcm hp)) mem_nil (fun _ => rfl) rfl (by decide) (by decide) (by decide)
  | lookup d leaf =>
    exact After.given (dbLookup_gives leaf hI (.inl hp.1) hp.2 (hcm hp)) mem_nil (fun _ => rfl) rfl (by decide) (by decide) (by decide)
  | newEnum d mode =>
    exact After.given (wp_mono (enumNew_gives_new mode hI (.inl hp.1) hp.2 (hcm hp)) (fun _ _ h => h.1)) mem_nil (fun _ => rfl)
      rfl (by decide) (by decide) (by decide)
  | setString x => exact After.kept (enumSetString_keeps hI hp.1 hp.2 ht) (mem_one rfl) (fun _ => rfl)
  | setCountries x l =>
    exact After.kept (enumSetCountries_keeps hI hp.1.1 hp.1.2 hp.2.1 hp.2.2) (mem_one rfl) (fun _ => rfl)
  | setAsns x l =>
    exact After.kept (enumSetAsns_keeps hI hp.1.1 hp.1.2 hp.2.1 hp.2.2) (mem_one rfl) (fun _ => rfl)
  | getCountries x =>
    exact After.given (enumGetList_gives .country (by decide) hI hp.1 hp.2) mem_nil (fun _ => rfl) rfl (by decide) (by decide) (by decide)
  | getAsns x =>
    exact After.given (enumGetList_gives .as (by decide) hI hp.1 hp.2) mem_nil (fun _ => rfl) rfl (by decide) (by decide) (by decide)
  | nextAs x matched =>
    exact After.given (enumNextAs_gives matched hI hp.1 hp.2) (mem_one rfl) (fun _ => rfl) rfl (by decide) (by decide) (by decide)
  | nextCountry x =>
    exact After.given (enumNextCountry_gives hI hp.1 hp.2) (mem_one rfl) (fun _ => rfl) rfl (by decide) (by decide) (by decide)
  | newWriter ctx f1 f2 => exact After.complete (writerNew_gives f1 f2 hI (hlv hp) hp.2) mem_nil (fun _ => rfl) rfl
  | setText x len found =>
    refine wp_bind (wp_mono (writerSetText_keeps len found hI hp.1 hp.2 (hcm hp)) (fun _ s1 ⟨hI1, t, ht1, hE1⟩ => ?_))
    exact wp_pure ⟨⟨t, ht1, hE1⟩, hI1, mem_nil⟩
  | addAs x number =>
    refine wp_bind (wp_mono (writerAddAs_gives number hI hp.1 hp.2 (hcm hp)) (fun r s1 ⟨t, ht1, hI1, hE1, hk1⟩ => ?_))
    exact wp_pure ⟨⟨t, ht1, hE1⟩, hI1, fun i hi => usable_of (hk1 i hi) rfl (by decide) (by decide) (by decide)⟩
  | addCountry x code =>
    refine wp_bind (wp_mono (writerAddCountry_gives code hI hp.1 hp.2 (hcm hp)) (fun r s1 ⟨t, ht1, hI1, hE1, hk1⟩ => ?_))
    exact wp_pure ⟨⟨t, ht1, hE1⟩, hI1, fun i hi => usable_of (hk1 i hi) rfl (by decide) (by decide) (by decide)⟩
  | pyOpen ctx a cs => exact After.complete (pyDbNew_gives a cs hI hp.1 hp.2) mem_nil (fun _ => rfl) rfl
  | pyLookup o leaf =>
    exact After.given (pyLookup_gives leaf hI hp.1 hp.2 (hcm hp)) mem_nil (fun _ => rfl) rfl (by decide) (by decide) (by decide)
  | pySearch ctx o codes asns =>
    have h := pySearchNetworks_gives codes asns hI hp.1.1 hp.1.2 hp.2.1 hp.2.2 (hcm hp.2)
    refine wp_bind (wp_mono (wp_run h) (fun r s1 ⟨hrun, hE1, hn, hs⟩ => ?_))
    cases r with
    | some x =>
      obtain ⟨hI1, hk1⟩ := hs x rfl
      exact wp_pure ⟨⟨[], mem_nil, hE1⟩, hI1, fun i hi => by
        simp at hi; subst hi; exact usable_of hk1 rfl (by decide) (by decide) (by decide)⟩
    | none =>
      refine wp_pure ⟨⟨[], mem_nil, hE1⟩, ?_, mem_nil⟩
      cases ht with
      | inl hA =>
        have hA' : A = True := eq_true hA
        subst hA'
        exact hn rfl
      | inr ht =>
        refine absurd ?_ (ht s1)
        show (pySearchNetworks ctx o codes asns >>= fun r => pure r.toList) w.state = _
        show (StateT.bind (pySearchNetworks ctx o codes asns) (fun r => pure r.toList)) w.state = _
        unfold StateT.bind
        rw [hrun]
        rfl
  | pyWriter ctx pyNone k1 k2 =>
    exact After.complete (pyWriterInit_gives hI (hlv hp.1) hp.1.2 hp.2.1 hp.2.2) mem_nil (fun _ => rfl) rfl

theorem winv_start (A : Prop) (fails odd : List Bool) (h : A ∨ odd = []) : WInv A (oworld fails odd) :=
  ⟨⟨[], .inr rfl, h, fun _ => rfl, fun i o k hi => by simp [oworld] at hi, fun i k hi => by simp [oworld] at hi⟩, mem_nil⟩

theorem ostep_spec {A : Prop} {w : OWorld} {op : OOp} (hw : WInv A w) (hp : OProper w op) (ht : A ∨ Tidy w op) :
    (∃ w', ostep w op = .ok w' ∧ WInv A w' ∧ ∃ t, (∀ i ∈ t, Changes w.state op i) ∧ Ext t w.state w'.state) ∨
      (A ∧ ostep w op = .error .null) := by
  have h := perform_spec hw hp ht
  unfold wp at h
  unfold ostep
  cases hm : perform op w.state with
  | error f =>
    rw [hm] at h
    cases f with
    | null => exact .inr ⟨h, rfl⟩
    | freed => exact absurd h id
    | kind => exact absurd h id
  | ok p =>
    obtain ⟨g, s'⟩ := p
    rw [hm] at h
    obtain ⟨⟨t, ht1, hE⟩, hI, hu⟩ := h
    refine .inl ⟨_, rfl, ⟨hI, fun i hi => ?_⟩, t, ht1, hE⟩
    simp only at hi
    have hsplit : i ∈ g ∨ i ∈ w.held := by
      cases op
      case drop k j =>
        cases List.mem_append.1 hi with
        | inl h => exact .inl h
        | inr h => exact .inr (List.mem_of_mem_erase h)
      all_goals exact List.mem_append.1 hi
    cases hsplit with
    | inl h => exact hu i h
    | inr h => exact (hw.2 i h).ext hE

theorem orun_spec {A : Prop} : ∀ (ops : List OOp) (w : OWorld), WInv A w → OObeys OProper w ops →
    (A ∨ OObeys Tidy w ops) → (∃ w', orun w ops = .ok w' ∧ WInv A w') ∨ (A ∧ orun w ops = .error .null) := by
  intro ops
  induction ops with
  | nil => intro w hw _ _; exact .inl ⟨w, rfl, hw⟩
  | cons op ops ih =>
    intro w hw hp ht
    cases ostep_spec hw hp.1 (ht.imp id (fun h => h.1)) with
    | inl h =>
      obtain ⟨w', hs, hw', _⟩ := h
      unfold orun
      rw [hs]
      exact ih w' hw' (hp.2 w' hs) (ht.imp id (fun h => h.2 w' hs))
    | inr h =>
      refine .inr ⟨h.1, ?_⟩
      unfold orun
      rw [h.2]

/-- How deep an object can be: objects refer to objects of lower ranks. -/
def OKind.rank : OKind → Nat
  | .block => 0
  | .ctx => 0
  | .item _ => 1
  | .pool => 1
  | .node => 1
  | .list _ => 2
  | .tree => 2
  | .db => 2
  | .enum => 3
  | .writer => 3
  | .pyDb => 3
  | .pyObj => 0

theorem rank_fields (o : Obj) : ∀ f ∈ pointers o, f.2.rank < o.kind.rank := by
  cases o <;> simp [pointers, Obj.kind, OKind.rank] <;> grind

theorem rank_le (k : OKind) : k.rank ≤ 3 := by cases k <;> simp [OKind.rank]

theorem sum_pos_mem {α : Type} (f : α → Nat) : ∀ (l : List α), 0 < (l.map f).sum → ∃ (i : Nat) (a : α), l[i]? = some a ∧ 0 < f a := by
  intro l
  induction l with
  | nil => intro h; simp at h
  | cons x xs ih =>
    intro h
    simp only [List.map_cons, List.sum_cons] at h
    by_cases hx : 0 < f x
    · exact ⟨0, x, rfl, hx⟩
    · obtain ⟨i, a, hi, ha⟩ := ih (by omega)
      exact ⟨i + 1, a, by simpa using hi, ha⟩

theorem inUse_exists {A : Prop} {s : OState} {e : List Nat} (hI : Inv A s e) {i : Nat} (h : InUse s e i) : Alive s i := by
  induction h with
  | root hi => exact hI.live hi
  | field _ ho hj ih => exact hI.field ih ho hj

/-- An object nobody holds a reference to is referred to by another. -/
theorem owner {s : OState} {e : List Nat} (hI : Inv False s e) {i : Nat} {k : OKind} (hk : kindOf s i = some k)
    (he : Alive s i) (hn : i ∉ e) :
    ∃ j o, Alive s j ∧ contents s j = some o ∧ i ∈ owns o ∧ k.rank < o.kind.rank := by
  have hI' := hI
  obtain ⟨lost, h1, _, h3, h4, _⟩ := hI
  have hl : lost = [] := h1.resolve_left id
  subst hl
  have h3i := h3 i
  rw [List.count_eq_zero.2 hn] at h3i
  simp only [List.count_nil] at h3i
  have hpos : 0 < owned s.objs i := by unfold Alive at he; omega
  obtain ⟨j, ⟨o, n⟩, hj, hc⟩ := sum_pos_mem _ _ hpos
  have hn0 : n ≠ 0 := by
    intro h; subst h; simp at hc
  simp only [if_neg hn0] at hc
  have hmem := List.count_pos_iff.1 hc
  have hco : contents s j = some o := by unfold contents; rw [hj]; rfl
  refine ⟨j, o, by unfold Alive refs; rw [hj]; simp only; omega, hco, hmem, ?_⟩
  obtain ⟨f, hf, hfi⟩ := List.mem_map.1 hmem
  have := (h4 j o n hj hn0).1 f hf
  rw [hfi, hk] at this
  cases this
  exact rank_fields o f hf

theorem exists_inUse {s : OState} {e : List Nat} (hI : Inv False s e) : ∀ (n i : Nat) (k : OKind), 3 - k.rank ≤ n →
    kindOf s i = some k → Alive s i → InUse s e i := by
  intro n
  induction n with
  | zero =>
    intro i k hn hk he
    by_cases hm : i ∈ e
    · exact .root hm
    · obtain ⟨j, o, _, _, _, hr⟩ := owner hI hk he hm
      have := rank_le o.kind
      omega
  | succ n ih =>
    intro i k hn hk he
    by_cases hm : i ∈ e
    · exact .root hm
    · obtain ⟨j, o, hj, hc, hi, hr⟩ := owner hI hk he hm
      have := rank_le o.kind
      exact .field (ih j o.kind (by omega) (kind_of_contents hc) hj) hc hi

theorem exists_iff_inUse {s : OState} {e : List Nat} (hI : Inv False s e) (i : Nat) : Alive s i ↔ InUse s e i := by
  constructor
  · intro h
    obtain ⟨o, ho⟩ := contents_of_refs h
    exact exists_inUse hI _ i o.kind (Nat.le_refl _) (kind_of_contents ho) h
  · exact inUse_exists hI

end Loc.Objects
