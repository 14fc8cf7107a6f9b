import Verif.Lemmas.File
import Verif.Props.Tree
import Verif.Props.Stringpool
/-
The invariant of a writer over all histories of calls.
-/
namespace Loc
open Spec

theorem codesAdded_append {K : Type} (a b : List (WOp K)) : codesAdded (a ++ b) = codesAdded a ++ codesAdded b := by
  simp [codesAdded]

/-- What is known about every country of a writer. -/
structure CountryGood (c : Country) : Prop where
  code : ccIsValid (some [c.c0, c.c1]) = true
  cont0 : c.k0 = 0 → c.k1 = 0
  cont1 : c.k0 ≠ 0 → c.k1 ≠ 0
  name : StrOk c.name

structure WInv {K : Type} (ctz0 : Nat) (key1 key2 : Option K) (ops : List (WOp K)) (w : Writer K) : Prop where
  reach : Reach ctz0 w.networks
  pool : ∃ ss, PoolOk w.pool ([] :: ss) ∧ At ([] :: ss) w.vendor (lastSet vendorCall ops) ∧
    At ([] :: ss) w.description (lastSet descriptionCall ops) ∧ At ([] :: ss) w.license (lastSet licenseCall ops)
  size : w.pool.data.length ≤ w.pool.size
  ases : ∀ number name, (⟨number, name⟩ : AS) ∈ w.ases ↔ asesOf ops number = some name
  nodup : (w.ases.map (·.number)).Nodup
  names : ∀ a ∈ w.ases, StrOk a.name
  countries : ∀ code cont name, (∃ c ∈ w.countries, countryGetCode c = code ∧ countryContinent c = cont ∧ c.name = name) ↔
    countriesOf ops code = some (cont, name)
  cgood : ∀ c ∈ w.countries, CountryGood c
  cnodup : (w.countries.map countryGetCode).Nodup
  csub : (w.countries.map countryGetCode).Sublist (codesAdded ops)
  k1 : w.key1 = key1
  k2 : w.key2 = key2
  s1 : w.sig1.length = sigMax
  s2 : w.sig2.length = sigMax
  l1 : w.sig1Len ≤ sigMax
  l2 : w.sig2Len ≤ sigMax
  z1 : key1 = none → w.sig1Len = 0
  z2 : key2 = none → w.sig2Len = 0

theorem lastSet_snoc {K : Type} (f : WOp K → Option CStr) (ops : List (WOp K)) (op : WOp K) :
    lastSet f (ops ++ [op]) = (match f op with | some s => s | none => lastSet f ops) := by
  simp only [lastSet, List.foldl_append, List.foldl_cons, List.foldl_nil]; cases f op <;> rfl

theorem asesOf_snoc {K : Type} (ops : List (WOp K)) (op : WOp K) : asesOf (ops ++ [op]) = asStep (asesOf ops) op := by
  simp only [asesOf, List.foldl_append, List.foldl_cons, List.foldl_nil]

theorem countriesOf_snoc {K : Type} (ops : List (WOp K)) (op : WOp K) :
    countriesOf (ops ++ [op]) = countryStep (countriesOf ops) op := by
  simp only [countriesOf, List.foldl_append, List.foldl_cons, List.foldl_nil]

theorem at_head (ss : List CStr) : At ([] :: ss) 0 [] := ⟨[], ss, rfl, rfl⟩

/-- Adding to the pool of a writer. -/
theorem poolAdd_inv {p : Pool} {ss : List CStr} (h : PoolOk p ss) (hsz : p.data.length ≤ p.size) {s : CStr} (hs : NoNul s) {off : Nat}
    {p' : Pool} (e : poolAdd p s = .ok (off, p')) :
    ∃ ss', PoolOk p' (ss ++ ss') ∧ At (ss ++ ss') off s ∧ p'.data.length ≤ p'.size := by
  rcases poolAdd_spec h s hs with ⟨-, c, d, h1, -, h3⟩ | ⟨-, q, h1, -, h2, h3⟩ | ⟨-, h3⟩
  · rw [h3] at e; cases e
    exact ⟨[], by simpa using h, ⟨c, d, by simp [h1], rfl⟩, hsz⟩
  · rw [h3] at e; cases e
    exact ⟨[s], h1, ⟨ss, [], rfl, rfl⟩, h2 hsz⟩
  · rw [h3] at e; cases e

theorem winv_new {K : Type} (ctz0 : Nat) (key1 key2 : Option K) {w : Writer K} (e : writerNew key1 key2 = .ok w) :
    WInv ctz0 key1 key2 [] w := by
  unfold writerNew at e
  cases hp : poolAdd poolNew [] with
  | error x => rw [hp] at e; cases e
  | ok r =>
    rw [hp] at e
    cases e
    obtain ⟨ss', h1, -, h3⟩ := poolAdd_inv Props.poolNew_ok (Nat.le_refl _) (by simp [NoNul]) hp
    have hss : ∃ ss, ss' = [] :: ss := by
      have hd := h1.data
      have hr : r.2.data = [0] := by
        have : poolAdd poolNew [] = .ok (0, ⟨[0], poolBlock⟩) := rfl
        rw [this] at hp; cases hp; rfl
      rw [hr, List.nil_append] at hd
      cases ss' with
      | nil => simp [joinStr] at hd
      | cons s ss =>
        rw [joinStr_cons] at hd
        cases s with
        | nil => exact ⟨ss, rfl⟩
        | cons b s =>
          rw [List.cons_append] at hd
          have := congrArg List.length hd
          simp at this
    obtain ⟨ss, rfl⟩ := hss
    refine ⟨.new, ⟨ss, by simpa using h1, at_head _, at_head _, at_head _⟩, h3, ?_, by simp, by simp, ?_, by simp, by simp, by simp [codesAdded],
      rfl, rfl, by simp, by simp, by simp, by simp, by simp, by simp⟩
    · intro number name; simp [asesOf]
    · intro code cont name; simp [countriesOf]

/-! ### ASes -/

theorem asListContains_iff (l : List AS) (k : BitVec 32) : asListContains l k = true ↔ ∃ name, (⟨k, name⟩ : AS) ∈ l := by
  unfold asListContains
  rw [List.any_eq_true]
  constructor
  · rintro ⟨⟨n, name⟩, h1, h2⟩
    simp only [beq_iff_eq] at h2
    subst h2
    exact ⟨name, h1⟩
  · rintro ⟨name, h⟩
    exact ⟨_, h, by simp⟩

theorem as_unique {l : List AS} (hn : (l.map (·.number)).Nodup) {a b : AS} (ha : a ∈ l) (hb : b ∈ l) (h : a.number = b.number) : a = b := by
  induction l with
  | nil => simp at ha
  | cons x l ih =>
    simp only [List.map_cons, List.nodup_cons] at hn
    rcases List.mem_cons.mp ha with ea | ha <;> rcases List.mem_cons.mp hb with eb | hb
    · rw [ea, eb]
    · exact absurd (List.mem_map.mpr ⟨b, hb, (ea ▸ h).symm⟩) hn.1
    · exact absurd (List.mem_map.mpr ⟨a, ha, eb ▸ h⟩) hn.1
    · exact ih hn.2 ha hb

theorem asInsert_perm (a : AS) (l : List AS) : (asInsert a l).Perm (a :: l) := by
  induction l with
  | nil => exact .refl _
  | cons b l ih =>
    unfold asInsert
    split
    · exact ((ih.cons b).trans (.swap a b l))
    · exact .refl _

theorem asListSort_perm (l : List AS) : (asListSort l).Perm l := by
  induction l with
  | nil => exact .refl _
  | cons a l ih =>
    unfold asListSort
    exact (asInsert_perm a _).trans (ih.cons a)

theorem asInsert_sorted {a : AS} {l : List AS} (hl : l.Pairwise (fun x y => x.number < y.number))
    (hn : ∀ b ∈ l, b.number ≠ a.number) : (asInsert a l).Pairwise (fun x y => x.number < y.number) := by
  induction l with
  | nil => simp [asInsert]
  | cons b l ih =>
    unfold asInsert
    rw [List.pairwise_cons] at hl
    split
    · rename_i hlt
      rw [List.pairwise_cons]
      refine ⟨?_, ih hl.2 (fun x hx => hn x (by simp [hx]))⟩
      intro x hx
      rcases List.mem_cons.mp ((asInsert_perm a l).subset hx) with rfl | hx
      · exact hlt
      · exact hl.1 x hx
    · rename_i hge
      have hb : a.number < b.number := by
        have := hn b (by simp)
        rw [BitVec.lt_def] at *
        have h2 : b.number.toNat ≠ a.number.toNat := fun e => this (BitVec.eq_of_toNat_eq e)
        omega
      rw [List.pairwise_cons, List.pairwise_cons]
      refine ⟨?_, hl⟩
      intro x hx
      rcases List.mem_cons.mp hx with rfl | hx
      · exact hb
      · exact BitVec.lt_trans hb (hl.1 x hx)

theorem asListSort_sorted {l : List AS} (hn : (l.map (·.number)).Nodup) :
    (asListSort l).Pairwise (fun x y => x.number < y.number) := by
  induction l with
  | nil => simp [asListSort]
  | cons a l ih =>
    simp only [List.map_cons, List.nodup_cons] at hn
    unfold asListSort
    refine asInsert_sorted (ih hn.2) ?_
    intro b hb e
    exact hn.1 (List.mem_map.mpr ⟨b, (asListSort_perm l).subset hb, e⟩)

theorem winv_addAs {K : Type} {ctz0 : Nat} {key1 key2 : Option K} {ops : List (WOp K)} {w : Writer K}
    (h : WInv ctz0 key1 key2 ops w) (k : BitVec 32) (s : Option CStr) (hs : StrOk s) :
    WInv ctz0 key1 key2 (ops ++ [.addAs k s]) (addAs w k s) := by
  have hst : asesOf (ops ++ [.addAs k s]) = fun j => if j = k ∧ asesOf ops j = none then some s else asesOf ops j := by
    rw [asesOf_snoc]; funext j; rfl
  have hnone : asesOf ops k = none ↔ asListContains w.ases k ≠ true := by
    rw [Ne, asListContains_iff]
    constructor
    · rintro h1 ⟨name, h2⟩; rw [(h.ases k name).mp h2] at h1; cases h1
    · intro h1
      cases hc : asesOf ops k with
      | none => rfl
      | some name => exact absurd ⟨name, (h.ases k name).mpr hc⟩ h1
  have hcr : countriesOf (ops ++ [WOp.addAs k s]) = countriesOf ops := by rw [countriesOf_snoc]; rfl
  have hases : (addAs w k s).ases = asListAppend w.ases ⟨k, s⟩ := rfl
  refine ⟨h.reach, ?_, h.size, ?_, ?_, ?_, by rw [hcr]; exact h.countries, h.cgood, h.cnodup, ?_, h.k1, h.k2, h.s1, h.s2, h.l1, h.l2, h.z1, h.z2⟩
  · simp only [lastSet_snoc]; exact h.pool
  · intro number name
    rw [hst, hases]
    unfold asListAppend
    simp only
    split
    · rename_i hc
      rw [h.ases, if_neg]
      rintro ⟨rfl, h2⟩
      exact hnone.mp h2 hc
    · rename_i hc
      rw [List.mem_append, List.mem_singleton, h.ases]
      by_cases hk : number = k
      · subst hk
        have h2 := hnone.mpr hc
        simp only [h2, and_self, if_true, AS.mk.injEq, true_and]
        constructor
        · rintro (h3 | h3)
          · cases h3
          · rw [h3]
        · intro h3; cases h3; exact .inr rfl
      · rw [if_neg (fun h2 => hk h2.1)]
        simp [hk]
  · rw [hases]
    unfold asListAppend
    simp only
    split
    · exact h.nodup
    · rename_i hc
      rw [List.map_append, List.nodup_append]
      refine ⟨h.nodup, by simp, ?_⟩
      intro a ha b hb
      simp only [List.map_cons, List.map_nil, List.mem_singleton] at hb
      subst hb
      rintro rfl
      obtain ⟨⟨n, name⟩, hx1, hx2⟩ := List.mem_map.mp ha
      simp only at hx2
      subst hx2
      exact hc ((asListContains_iff _ _).mpr ⟨name, hx1⟩)
  · rw [hases]
    unfold asListAppend
    simp only
    split
    · exact h.names
    · intro a ha
      rcases List.mem_append.mp ha with ha | ha
      · exact h.names a ha
      · simp at ha; subst ha; exact hs
  · rw [codesAdded_append]; exact h.csub.trans (List.sublist_append_left _ _)

theorem winv_renameAs {K : Type} {ctz0 : Nat} {key1 key2 : Option K} {ops : List (WOp K)} {w : Writer K}
    (h : WInv ctz0 key1 key2 ops w) (k : BitVec 32) (s : Option CStr) (hs : StrOk s) :
    WInv ctz0 key1 key2 (ops ++ [.renameAs k s]) (renameAs w k s) := by
  have hst : asesOf (ops ++ [.renameAs k s]) = fun j => if j = k ∧ asesOf ops j ≠ none then some s else asesOf ops j := by
    rw [asesOf_snoc]; funext j; rfl
  have hcr : countriesOf (ops ++ [WOp.renameAs k s]) = countriesOf ops := by rw [countriesOf_snoc]; rfl
  have hases : (renameAs w k s).ases = w.ases.map fun a => if a.number = k then { a with name := s } else a := rfl
  have hnum : ((renameAs w k s).ases.map (·.number)) = w.ases.map (·.number) := by
    rw [hases, List.map_map]
    apply List.map_congr_left
    intro a _
    simp only [Function.comp]
    split <;> rfl
  refine ⟨h.reach, ?_, h.size, ?_, ?_, ?_, by rw [hcr]; exact h.countries, h.cgood, h.cnodup, ?_, h.k1, h.k2, h.s1, h.s2, h.l1, h.l2, h.z1, h.z2⟩
  · simp only [lastSet_snoc]; exact h.pool
  · intro number name
    rw [hst, hases, List.mem_map]
    simp only
    by_cases hk : number = k
    · subst hk
      constructor
      · rintro ⟨⟨m, nm⟩, hm, e⟩
        split at e
        · rename_i hmn
          simp only at hmn
          subst hmn
          simp only [AS.mk.injEq, true_and] at e
          have := (h.ases m nm).mp hm
          rw [if_pos ⟨rfl, by rw [this]; simp⟩, e]
        · rename_i hmn
          simp only [AS.mk.injEq] at e
          exact absurd e.1 hmn
      · intro e
        split at e
        · rename_i hc
          cases e
          cases hc2 : asesOf ops number with
          | none => exact absurd hc2 hc.2
          | some nm => exact ⟨⟨number, nm⟩, (h.ases _ _).mpr hc2, by simp⟩
        · rename_i hc
          exact absurd ⟨rfl, by rw [e]; simp⟩ hc
    · rw [if_neg (fun h2 => hk h2.1), ← h.ases]
      constructor
      · rintro ⟨⟨m, nm⟩, hm, e⟩
        split at e
        · rename_i hmn
          simp only at hmn
          simp only [AS.mk.injEq] at e
          exact absurd (e.1.symm.trans hmn) hk
        · simp only [AS.mk.injEq] at e
          obtain ⟨rfl, rfl⟩ := e
          exact hm
      · intro hm
        exact ⟨_, hm, by simp [hk]⟩
  · rw [hnum]; exact h.nodup
  · rw [hases]
    intro a ha
    obtain ⟨b, hb, rfl⟩ := List.mem_map.mp ha
    split
    · exact hs
    · exact h.names b hb
  · rw [codesAdded_append]; exact h.csub.trans (List.sublist_append_left _ _)

/-! ### Countries -/

theorem valid_ne_zero {c d : Byte} (h : ccIsValid (some [c, d]) = true) : c ≠ 0 ∧ d ≠ 0 := by
  exact validCC_ne_zero ((ccIsValid_iff _).mp h)

theorem ccString_ne {c d : Byte} (h1 : c ≠ 0) (h2 : d ≠ 0) : ccString c d = [c, d] := by
  unfold ccString; rw [if_neg h1, if_neg h2]

theorem getCode_good {c : Country} (h : CountryGood c) : countryGetCode c = [c.c0, c.c1] := by
  have := valid_ne_zero h.code
  exact ccString_ne this.1 this.2

theorem countryListContains_iff {l : List Country} (hl : ∀ c ∈ l, CountryGood c) {c : Country} (hc : CountryGood c) :
    countryListContains l c = true ↔ countryGetCode c ∈ l.map countryGetCode := by
  unfold countryListContains
  rw [List.any_eq_true, List.mem_map]
  constructor
  · rintro ⟨d, h1, h2⟩
    refine ⟨d, h1, ?_⟩
    simp only [beq_iff_eq, countryCmp, ccCmp_zero] at h2
    rw [getCode_good (hl d h1), getCode_good hc, h2.1, h2.2]
  · rintro ⟨d, h1, h2⟩
    refine ⟨d, h1, ?_⟩
    rw [getCode_good (hl d h1), getCode_good hc] at h2
    simp only [List.cons.injEq, and_true] at h2
    simp [countryCmp, ccCmp_zero, h2.1, h2.2]

/-- The country built by `loc_writer_add_country` and the two setters. -/
theorem built_country {code : CStr} {cont name : Option CStr} (hcont : StrOk cont) (hname : StrOk name) (hv : ccIsValid (some code) = true) :
    ∃ c, countryNew (some code) = .ok c ∧
      CountryGood { ignoreErr (countrySetContinent c cont) c with name := name } ∧
      countryGetCode { ignoreErr (countrySetContinent c cont) c with name := name } = code ∧
      countryContinent { ignoreErr (countrySetContinent c cont) c with name := name } = keptContinent cont := by
  obtain ⟨c0, c1, rfl, hh⟩ := (ccIsValid_iff _).mp hv
  have hz := valid_ne_zero hv
  have hnew : countryNew (some [c0, c1]) = .ok ⟨c0, c1, 0, 0, none⟩ := by
    unfold countryNew; rw [hv]; rfl
  refine ⟨_, hnew, ?_⟩
  match cont, hcont with
  | some [k0, k1], hcont =>
    have hk0 : k0 ≠ 0 := by
      rintro rfl; exact hcont _ rfl (by simp)
    have hk1 : k1 ≠ 0 := by
      rintro rfl; exact hcont _ rfl (by simp)
    refine ⟨⟨hv, fun h => absurd h hk0, fun _ => hk1, hname⟩, ?_, ?_⟩
    · exact ccString_ne hz.1 hz.2
    · show (if k0 = 0 then none else some (ccString k0 k1)) = _
      rw [if_neg hk0, ccString_ne hk0 hk1]; rfl
  | none, _ =>
    refine ⟨⟨hv, fun _ => rfl, fun h => absurd rfl h, hname⟩, ?_, ?_⟩
    · exact ccString_ne hz.1 hz.2
    · rfl
  | some [], _ =>
    refine ⟨⟨hv, fun _ => rfl, fun h => absurd rfl h, hname⟩, ?_, ?_⟩
    · exact ccString_ne hz.1 hz.2
    · rfl
  | some [_], _ =>
    refine ⟨⟨hv, fun _ => rfl, fun h => absurd rfl h, hname⟩, ?_, ?_⟩
    · exact ccString_ne hz.1 hz.2
    · rfl
  | some (_ :: _ :: _ :: _), _ =>
    refine ⟨⟨hv, fun _ => rfl, fun h => absurd rfl h, hname⟩, ?_, ?_⟩
    · exact ccString_ne hz.1 hz.2
    · rfl

theorem winv_same {K : Type} {ctz0 : Nat} {key1 key2 : Option K} {ops : List (WOp K)} {w : Writer K}
    (h : WInv ctz0 key1 key2 ops w) (op : WOp K) (h1 : vendorCall op = none) (h2 : descriptionCall op = none)
    (h3 : licenseCall op = none) (h4 : asStep (asesOf ops) op = asesOf ops) (h5 : countryStep (countriesOf ops) op = countriesOf ops)
    (h6 : codesAdded [op] = []) : WInv ctz0 key1 key2 (ops ++ [op]) w := by
  refine ⟨h.reach, ?_, h.size, ?_, h.nodup, h.names, ?_, h.cgood, h.cnodup, ?_, h.k1, h.k2, h.s1, h.s2, h.l1, h.l2, h.z1, h.z2⟩
  · simp only [lastSet_snoc, h1, h2, h3]; exact h.pool
  · rw [asesOf_snoc, h4]; exact h.ases
  · rw [countriesOf_snoc, h5]; exact h.countries
  · rw [codesAdded_append, h6]; simpa using h.csub

theorem country_exists_iff {l : List Country} {code : CStr} :
    code ∈ l.map countryGetCode ↔ ∃ cont name, ∃ c ∈ l, countryGetCode c = code ∧ countryContinent c = cont ∧ c.name = name := by
  rw [List.mem_map]
  constructor
  · rintro ⟨c, h1, h2⟩; exact ⟨_, _, c, h1, h2, rfl, rfl⟩
  · rintro ⟨_, _, c, h1, h2, -, -⟩; exact ⟨c, h1, h2⟩

theorem winv_addCountry {K : Type} {ctz0 : Nat} {key1 key2 : Option K} {ops : List (WOp K)} {w w' : Writer K}
    (h : WInv ctz0 key1 key2 ops w) (code cont name : Option CStr) (hcont : StrOk cont) (hname : StrOk name)
    (e : wstep w (.addCountry code cont name) = .ok w') :
    WInv ctz0 key1 key2 (ops ++ [.addCountry code cont name]) w' := by
  cases hcode : code with
  | none =>
    subst hcode
    simp only [wstep, addCountry, countryNew, ccIsValid] at e
    cases e
    exact winv_same h _ rfl rfl rfl rfl rfl rfl
  | some code' =>
    subst hcode
    by_cases hv : ccIsValid (some code') = true
    · obtain ⟨c, h1, h2, h3, h4⟩ := built_country hcont hname hv
      simp only [wstep, addCountry, h1] at e
      cases e
      generalize hc : ({ ignoreErr (countrySetContinent c cont) c with name := name } : Country) = cc at h2 h3 h4
      have hnm : cc.name = name := by rw [← hc]
      have hst : countriesOf (ops ++ [.addCountry (some code') cont name]) =
          fun k => if k = code' ∧ countriesOf ops k = none then some (keptContinent cont, name) else countriesOf ops k := by
        rw [countriesOf_snoc]
        funext k
        simp only [countryStep, (ccIsValid_iff code').mp hv, true_and]
      have hin : code' ∈ w.countries.map countryGetCode ↔ countriesOf ops code' ≠ none := by
        rw [country_exists_iff]
        constructor
        · rintro ⟨a, b, hab⟩
          rw [(h.countries _ _ _).mp hab]; simp
        · intro hne
          cases hx : countriesOf ops code' with
          | none => exact absurd hx hne
          | some x => exact ⟨x.1, x.2, (h.countries _ _ _).mpr hx⟩
      have hcontains := countryListContains_iff h.cgood h2
      rw [h3] at hcontains
      have hcodes : codesAdded (ops ++ [WOp.addCountry (some code') cont name]) = codesAdded ops ++ [code'] := by
        rw [codesAdded_append]; simp [codesAdded, (ccIsValid_iff _).mp hv]
      refine ⟨h.reach, ?_, h.size, ?_, h.nodup, h.names, ?_, ?_, ?_, ?_, h.k1, h.k2, h.s1, h.s2, h.l1, h.l2, h.z1, h.z2⟩
      · simp only [lastSet_snoc]; exact h.pool
      · rw [asesOf_snoc]; exact h.ases
      · intro k a b
        rw [hst]
        simp only [countryListAppend, hc]
        split
        · rename_i hcc
          have := hin.mp (hcontains.mp hcc)
          rw [if_neg, ← h.countries]
          rintro ⟨rfl, h5⟩; exact this h5
        · rename_i hcc
          have hnone : countriesOf ops code' = none := by
            cases hx : countriesOf ops code' with
            | none => rfl
            | some x => exact absurd (hcontains.mpr (hin.mpr (by rw [hx]; simp))) hcc
          by_cases hk : k = code'
          · subst hk
            rw [if_pos ⟨rfl, hnone⟩]
            constructor
            · rintro ⟨d, hd, p1, p2, p3⟩
              rcases List.mem_append.mp hd with hd | hd
              · have := (h.countries _ _ _).mp ⟨d, hd, p1, p2, p3⟩
                rw [hnone] at this; cases this
              · simp at hd; subst hd
                rw [← p2, ← p3, h4, hnm]
            · intro e
              simp only [Option.some.injEq, Prod.mk.injEq] at e
              exact ⟨cc, by simp, h3, by rw [h4]; exact e.1, by rw [hnm]; exact e.2⟩
          · rw [if_neg (fun x => hk x.1), ← h.countries]
            constructor
            · rintro ⟨d, hd, p1, p2, p3⟩
              rcases List.mem_append.mp hd with hd | hd
              · exact ⟨d, hd, p1, p2, p3⟩
              · simp at hd; subst hd
                exact absurd (p1.symm.trans h3) hk
            · rintro ⟨d, hd, p⟩
              exact ⟨d, by simp [hd], p⟩
      · simp only [countryListAppend, hc]
        split
        · exact h.cgood
        · intro d hd
          rcases List.mem_append.mp hd with hd | hd
          · exact h.cgood d hd
          · simp at hd; subst hd; exact h2
      · simp only [countryListAppend, hc]
        split
        · exact h.cnodup
        · rename_i hcc
          rw [List.map_append, List.nodup_append]
          refine ⟨h.cnodup, by simp, ?_⟩
          intro a ha b hb
          simp only [List.map_cons, List.map_nil, List.mem_singleton] at hb
          subst hb
          rintro rfl
          rw [h3] at ha
          exact hcc (hcontains.mpr ha)
      · rw [hcodes]
        simp only [countryListAppend, hc]
        split
        · exact h.csub.trans (List.sublist_append_left _ _)
        · rw [List.map_append]
          simp only [List.map_cons, List.map_nil, h3]
          exact h.csub.append (.refl _)
    · have hnew : countryNew (some code') = .error (.err EINVAL) := by
        unfold countryNew; rw [if_pos (by simp [hv])]
      simp only [wstep, addCountry, hnew] at e
      cases e
      refine winv_same h _ rfl rfl rfl rfl ?_ ?_
      · funext k
        simp only [countryStep]
        rw [if_neg]
        rintro ⟨-, h2, -⟩
        exact hv ((ccIsValid_iff _).mpr h2)
      · simp only [codesAdded, List.filterMap_cons, List.filterMap_nil]
        rw [if_neg (fun h2 => hv ((ccIsValid_iff _).mpr h2))]

/-! ### Metadata -/

theorem winv_vendor {K : Type} {ctz0 : Nat} {key1 key2 : Option K} {ops : List (WOp K)} {w w' : Writer K}
    (h : WInv ctz0 key1 key2 ops w) (s : Option CStr) (hs : StrOk s) (e : wstep w (.vendor s) = .ok w') :
    WInv ctz0 key1 key2 (ops ++ [.vendor s]) w' := by
  have hcr : countriesOf (ops ++ [WOp.vendor s]) = countriesOf ops := by rw [countriesOf_snoc]; rfl
  have has : asesOf (ops ++ [WOp.vendor s]) = asesOf ops := by rw [asesOf_snoc]; rfl
  have hca : codesAdded (ops ++ [WOp.vendor s]) = codesAdded ops := by rw [codesAdded_append]; simp [codesAdded]
  cases s with
  | none =>
    simp only [wstep, setVendor] at e
    cases e
    exact winv_same h _ rfl rfl rfl rfl rfl rfl
  | some s =>
    obtain ⟨ss, p1, p2, p3, p4⟩ := h.pool
    simp only [wstep, setVendor] at e
    cases hp : poolAdd w.pool s with
    | error x =>
      rw [hp] at e
      simp only at e
      cases x with
      | err n =>
        exfalso
        rcases poolAdd_spec p1 s (hs s rfl) with ⟨-, c, d, -, -, h3⟩ | ⟨-, q, -, -, -, h3⟩ | ⟨-, h3⟩ <;>
        · rw [h3] at hp; cases hp
      | oob => cases e
      | eof => cases e
      | diverge => cases e
    | ok r =>
      rw [hp] at e
      simp only at e
      cases e
      obtain ⟨ss', q1, q2, q3⟩ := poolAdd_inv p1 h.size (hs s rfl) hp
      refine ⟨h.reach, ⟨ss ++ ss', by simpa using q1, ?_, ?_, ?_⟩, q3, by rw [has]; exact h.ases, h.nodup, h.names, by rw [hcr]; exact h.countries, h.cgood, h.cnodup,
        by rw [hca]; exact h.csub, h.k1, h.k2, h.s1, h.s2, h.l1, h.l2, h.z1, h.z2⟩
      · rw [lastSet_snoc]; exact q2
      · rw [lastSet_snoc]; exact p3.append ss'
      · rw [lastSet_snoc]; exact p4.append ss'

theorem winv_description {K : Type} {ctz0 : Nat} {key1 key2 : Option K} {ops : List (WOp K)} {w w' : Writer K}
    (h : WInv ctz0 key1 key2 ops w) (s : Option CStr) (hs : StrOk s) (e : wstep w (.description s) = .ok w') :
    WInv ctz0 key1 key2 (ops ++ [.description s]) w' := by
  have hcr : countriesOf (ops ++ [WOp.description s]) = countriesOf ops := by rw [countriesOf_snoc]; rfl
  have has : asesOf (ops ++ [WOp.description s]) = asesOf ops := by rw [asesOf_snoc]; rfl
  have hca : codesAdded (ops ++ [WOp.description s]) = codesAdded ops := by rw [codesAdded_append]; simp [codesAdded]
  cases s with
  | none =>
    simp only [wstep, setDescription] at e
    cases e
    exact winv_same h _ rfl rfl rfl rfl rfl rfl
  | some s =>
    obtain ⟨ss, p1, p2, p3, p4⟩ := h.pool
    simp only [wstep, setDescription] at e
    cases hp : poolAdd w.pool s with
    | error x =>
      rw [hp] at e
      simp only at e
      cases x with
      | err n =>
        exfalso
        rcases poolAdd_spec p1 s (hs s rfl) with ⟨-, c, d, -, -, h3⟩ | ⟨-, q, -, -, -, h3⟩ | ⟨-, h3⟩ <;>
        · rw [h3] at hp; cases hp
      | oob => cases e
      | eof => cases e
      | diverge => cases e
    | ok r =>
      rw [hp] at e
      simp only at e
      cases e
      obtain ⟨ss', q1, q2, q3⟩ := poolAdd_inv p1 h.size (hs s rfl) hp
      refine ⟨h.reach, ⟨ss ++ ss', by simpa using q1, ?_, ?_, ?_⟩, q3, by rw [has]; exact h.ases, h.nodup, h.names, by rw [hcr]; exact h.countries, h.cgood, h.cnodup,
        by rw [hca]; exact h.csub, h.k1, h.k2, h.s1, h.s2, h.l1, h.l2, h.z1, h.z2⟩
      · rw [lastSet_snoc]; exact p2.append ss'
      · rw [lastSet_snoc]; exact q2
      · rw [lastSet_snoc]; exact p4.append ss'

theorem winv_license {K : Type} {ctz0 : Nat} {key1 key2 : Option K} {ops : List (WOp K)} {w w' : Writer K}
    (h : WInv ctz0 key1 key2 ops w) (s : Option CStr) (hs : StrOk s) (e : wstep w (.license s) = .ok w') :
    WInv ctz0 key1 key2 (ops ++ [.license s]) w' := by
  have hcr : countriesOf (ops ++ [WOp.license s]) = countriesOf ops := by rw [countriesOf_snoc]; rfl
  have has : asesOf (ops ++ [WOp.license s]) = asesOf ops := by rw [asesOf_snoc]; rfl
  have hca : codesAdded (ops ++ [WOp.license s]) = codesAdded ops := by rw [codesAdded_append]; simp [codesAdded]
  cases s with
  | none =>
    simp only [wstep, setLicense] at e
    cases e
    exact winv_same h _ rfl rfl rfl rfl rfl rfl
  | some s =>
    obtain ⟨ss, p1, p2, p3, p4⟩ := h.pool
    simp only [wstep, setLicense] at e
    cases hp : poolAdd w.pool s with
    | error x =>
      rw [hp] at e
      simp only at e
      cases x with
      | err n =>
        exfalso
        rcases poolAdd_spec p1 s (hs s rfl) with ⟨-, c, d, -, -, h3⟩ | ⟨-, q, -, -, -, h3⟩ | ⟨-, h3⟩ <;>
        · rw [h3] at hp; cases hp
      | oob => cases e
      | eof => cases e
      | diverge => cases e
    | ok r =>
      rw [hp] at e
      simp only at e
      cases e
      obtain ⟨ss', q1, q2, q3⟩ := poolAdd_inv p1 h.size (hs s rfl) hp
      refine ⟨h.reach, ⟨ss ++ ss', by simpa using q1, ?_, ?_, ?_⟩, q3, by rw [has]; exact h.ases, h.nodup, h.names, by rw [hcr]; exact h.countries, h.cgood, h.cnodup,
        by rw [hca]; exact h.csub, h.k1, h.k2, h.s1, h.s2, h.l1, h.l2, h.z1, h.z2⟩
      · rw [lastSet_snoc]; exact p2.append ss'
      · rw [lastSet_snoc]; exact p3.append ss'
      · rw [lastSet_snoc]; exact q2

/-! ### Networks -/

theorem winv_tree {K : Type} {ctz0 : Nat} {key1 key2 : Option K} {ops : List (WOp K)} {w : Writer K}
    (h : WInv ctz0 key1 key2 ops w) {t : Tree} (ht : Reach ctz0 t) : WInv ctz0 key1 key2 ops { w with networks := t } :=
  ⟨ht, h.pool, h.size, h.ases, h.nodup, h.names, h.countries, h.cgood, h.cnodup, h.csub, h.k1, h.k2, h.s1, h.s2, h.l1, h.l2, h.z1, h.z2⟩

/-! ### Writing -/

theorem asRecord_inv {a : AS} {p p' : Pool} {ss : List CStr} {b : Bytes} (hp : PoolOk p ss) (hsz : p.data.length ≤ p.size) (hn : StrOk a.name)
    (e : asRecord a p = .ok (b, p')) : ∃ ss', PoolOk p' (ss ++ ss') ∧ p'.data.length ≤ p'.size := by
  have hs : NoNul (match a.name with | some s => s | none => []) := by
    cases h : a.name with
    | none => simp [NoNul]
    | some s => exact hn s h
  unfold asRecord at e
  split at e
  · cases e
  · rename_i off q hq
    cases e
    obtain ⟨ss', h1, -, h2⟩ := poolAdd_inv hp hsz hs hq
    exact ⟨ss', h1, h2⟩

theorem writeAses_inv (l : List AS) : ∀ {p p' : Pool} {ss : List CStr} {bs : Bytes}, PoolOk p ss → p.data.length ≤ p.size →
    (∀ a ∈ l, StrOk a.name) → writeAses l p = .ok (bs, p') → p'.data.length ≤ p'.size := by
  induction l with
  | nil => intro p p' ss bs _ hsz _ e; unfold writeAses at e; cases e; exact hsz
  | cons a l ih =>
    intro p p' ss bs hp hsz hn e
    unfold writeAses at e
    split at e
    · cases e
    · rename_i b q hq
      split at e
      · cases e
      · rename_i bs' q' hq'
        cases e
        obtain ⟨s1, h1, h2⟩ := asRecord_inv hp hsz (hn a (by simp)) hq
        exact ih h1 h2 (fun x hx => hn x (by simp [hx])) hq'

theorem writeCountries_inv (l : List Country) : ∀ {prev : Byte × Byte} {p p' : Pool} {ss : List CStr} {bs : Bytes}, PoolOk p ss →
    p.data.length ≤ p.size → (∀ c ∈ l, StrOk c.name) → writeCountries l prev p = .ok (bs, p') → p'.data.length ≤ p'.size := by
  induction l with
  | nil => intro prev p p' ss bs _ hsz _ e; unfold writeCountries at e; cases e; exact hsz
  | cons c l ih =>
    intro prev p p' ss bs hp hsz hn e
    unfold writeCountries at e
    split at e
    · cases e
    · rename_i b k q hq
      split at e
      · cases e
      · rename_i bs' q' hq'
        cases e
        have : ∃ ss', PoolOk q (ss ++ ss') ∧ q.data.length ≤ q.size := by
          unfold countryRecord at hq
          simp only at hq
          cases hnm : c.name with
          | none =>
            rw [hnm] at hq
            simp only [Except.ok.injEq, Prod.mk.injEq] at hq
            obtain ⟨-, -, rfl⟩ := hq
            exact ⟨[], by simpa using hp, hsz⟩
          | some s =>
            rw [hnm] at hq
            simp only at hq
            split at hq
            · cases hq
            · rename_i off q2 hq2
              simp only [Except.ok.injEq, Prod.mk.injEq] at hq
              obtain ⟨-, -, rfl⟩ := hq
              obtain ⟨ss', h1, -, h2⟩ := poolAdd_inv hp hsz (hn c (by simp) s hnm) hq2
              exact ⟨ss', h1, h2⟩
        obtain ⟨s1, h1, h2⟩ := this
        exact ih h1 h2 (fun x hx => hn x (by simp [hx])) hq'

theorem writeSections_inv {K : Type} {ctz0 : Nat} {key1 key2 : Option K} {ops : List (WOp K)} {w w' : Writer K}
    (h : WInv ctz0 key1 key2 ops w) {e : WEnv K} (he : e.ctz0 = ctz0) {s : Sections}
    (hw : writeSections e w = .ok (s, w')) : WInv ctz0 key1 key2 ops w' := by
  obtain ⟨ss, p1, p2, p3, p4⟩ := h.pool
  have hperm := asListSort_perm w.ases
  have hnames : ∀ a ∈ asListSort w.ases, StrOk a.name := fun a ha => h.names a (hperm.subset ha)
  unfold writeSections at hw
  simp only at hw
  split at hw
  · cases hw
  · rename_i asBytes pool1 h1
    split at hw
    · cases hw
    · rename_i t h2
      split at hw
      · cases hw
      · rename_i recs nets h3
        split at hw
        · cases hw
        · rename_i ctBytes pool2 h4
          simp only [Except.ok.injEq, Prod.mk.injEq] at hw
          obtain ⟨-, rfl⟩ := hw
          obtain ⟨_, s1, -, -, -, q1, -⟩ := writeAses_spec _ p1 hnames h1
          have z1 := writeAses_inv _ p1 h.size hnames h1
          obtain ⟨_, s2, -, -, -, q2, -⟩ := writeCountries_spec _ q1 (by simp) (fun c hc => (h.cgood c hc).name) h4
          have z2 := writeCountries_inv _ q1 z1 (fun c hc => (h.cgood c hc).name) h4
          refine ⟨.cleanup h.reach (he ▸ h2), ⟨ss ++ s1 ++ s2, by simpa using q2, ?_, ?_, ?_⟩, z2, ?_, ?_, hnames, h.countries, h.cgood, h.cnodup, h.csub,
            h.k1, h.k2, h.s1, h.s2, h.l1, h.l2, h.z1, h.z2⟩
          · have := p2.append (s1 ++ s2); simpa using this
          · have := p3.append (s1 ++ s2); simpa using this
          · have := p4.append (s1 ++ s2); simpa using this
          · intro number name
            rw [← h.ases]
            exact ⟨fun x => hperm.subset x, fun x => hperm.symm.subset x⟩
          · exact (hperm.map _).nodup_iff.mpr h.nodup

theorem signWith_spec {K : Type} {sign : K → Bytes → SignOut} {key : Option K} {msg buf buf' : Bytes} {len len' : Nat}
    (h1 : buf.length = sigMax) (h2 : len ≤ sigMax) (h3 : key = none → len = 0)
    (e : signWith sign key msg buf len = .ok (buf', len')) :
    buf'.length = sigMax ∧ len' ≤ sigMax ∧ (key = none → len' = 0) := by
  cases key with
  | none => simp only [signWith] at e; cases e; exact ⟨h1, h2, h3⟩
  | some k =>
    simp only [signWith, createSignature] at e
    split at e
    · split at e
      · rename_i hs
        cases e
        refine ⟨?_, hs, fun h => by cases h⟩
        rw [List.length_append, List.length_drop, h1]; omega
      · cases e
    · split at e
      · cases e; exact ⟨h1, Nat.le_refl _, fun h => by cases h⟩
      · cases e
    · cases e

/-- How a write ends: nothing happened, signing failed after the sections were built, or a file. -/
theorem writerWrite_cases {K : Type} {e : WEnv K} {w w' : Writer K} {old : Bytes} {version : Nat} {f : Option Bytes}
    (h : writerWrite e w old version = .ok (w', f)) :
    (w' = w ∧ f = none) ∨
    ∃ s w1, writeSections e w = .ok (s, w1) ∧
      ((w' = w1 ∧ f = none) ∨
       ∃ sig1 len1 sig2 len2 msg rest,
        rest = bodyBytes s ++ old.drop (magicSize + headerSize + (bodyBytes s).length) ∧
        msg = magic ++ headerBytes (makeHeader e w1 s) [] [] ++ rest ∧
        signWith e.sign w1.key1 msg w1.sig1 w1.sig1Len = .ok (sig1, len1) ∧
        signWith e.sign w1.key2 msg w1.sig2 w1.sig2Len = .ok (sig2, len2) ∧
        w' = { w1 with sig1 := sig1, sig1Len := len1, sig2 := sig2, sig2Len := len2 } ∧
        f = some (magic ++ headerBytes (makeHeader e w1 s) (sig1.take len1) (sig2.take len2) ++ rest)) := by
  unfold writerWrite at h
  split at h
  · cases h; exact .inl ⟨rfl, rfl⟩
  · split at h
    · cases h
    · rename_i s w1 hs
      right
      refine ⟨s, w1, hs, ?_⟩
      simp only at h
      split at h
      · cases h; exact .inl ⟨rfl, rfl⟩
      · rename_i sig1 len1 h1
        split at h
        · cases h; exact .inl ⟨rfl, rfl⟩
        · rename_i sig2 len2 h2
          cases h
          exact .inr ⟨sig1, len1, sig2, len2, _, _, rfl, rfl, h1, h2, rfl, rfl⟩

theorem winv_write {K : Type} {ctz0 : Nat} {key1 key2 : Option K} {ops : List (WOp K)} {w w' : Writer K}
    (h : WInv ctz0 key1 key2 ops w) {e : WEnv K} (he : e.ctz0 = ctz0) {old : Bytes} {version : Nat} {f : Option Bytes}
    (hw : writerWrite e w old version = .ok (w', f)) : WInv ctz0 key1 key2 ops w' := by
  rcases writerWrite_cases hw with ⟨rfl, -⟩ | ⟨s, w1, hs, hr⟩
  · exact h
  · have h1 := writeSections_inv h he hs
    rcases hr with ⟨rfl, -⟩ | ⟨sig1, len1, sig2, len2, msg, rest, -, -, e1, e2, rfl, -⟩
    · exact h1
    · obtain ⟨a1, a2, a3⟩ := signWith_spec h1.s1 h1.l1 (fun hk => h1.z1 (h1.k1 ▸ hk)) e1
      obtain ⟨b1, b2, b3⟩ := signWith_spec h1.s2 h1.l2 (fun hk => h1.z2 (h1.k2 ▸ hk)) e2
      exact ⟨h1.reach, h1.pool, h1.size, h1.ases, h1.nodup, h1.names, h1.countries, h1.cgood, h1.cnodup, h1.csub, h1.k1, h1.k2,
        a1, b1, a2, b2, fun hk => a3 (h1.k1.trans hk), fun hk => b3 (h1.k2.trans hk)⟩

theorem winv_step {K : Type} {ctz0 : Nat} {key1 key2 : Option K} {ops : List (WOp K)} {w w' : Writer K}
    (h : WInv ctz0 key1 key2 ops w) {op : WOp K} (hop : OpOk ctz0 op) (e : wstep w op = .ok w') :
    WInv ctz0 key1 key2 (ops ++ [op]) w' := by
  cases op with
  | vendor s => exact winv_vendor h s hop e
  | description s => exact winv_description h s hop e
  | license s => exact winv_license h s hop e
  | addAs k s => cases e; exact winv_addAs h k s hop
  | renameAs k s => cases e; exact winv_renameAs h k s hop
  | addCountry code cont name => exact winv_addCountry h code cont name hop.2.1 hop.2.2 e
  | addNetwork n =>
    simp only [wstep, addNetwork] at e
    cases ht : treeAdd w.networks n with
    | error x => rw [ht] at e; cases e
    | ok r =>
      rw [ht] at e
      cases e
      exact winv_same (winv_tree h (.add h.reach hop ht)) _ rfl rfl rfl rfl rfl rfl
  | changeNetwork n n' =>
    cases e
    exact winv_same (winv_tree h (.change h.reach hop.1 hop.2)) _ rfl rfl rfl rfl rfl rfl
  | write env old version =>
    simp only [wstep] at e
    cases hw : writerWrite env w old version with
    | error x => rw [hw] at e; cases e
    | ok r =>
      rw [hw] at e
      cases e
      exact winv_same (winv_write h hop hw) _ rfl rfl rfl rfl rfl rfl

theorem winv_run {K : Type} {ctz0 : Nat} {key1 key2 : Option K} (ops : List (WOp K)) : ∀ {done : List (WOp K)} {w w' : Writer K},
    WInv ctz0 key1 key2 done w → (∀ op ∈ ops, OpOk ctz0 op) → wrun w ops = .ok w' → WInv ctz0 key1 key2 (done ++ ops) w' := by
  induction ops with
  | nil => intro done w w' h _ e; cases e; simpa using h
  | cons op ops ih =>
    intro done w w' h hop e
    unfold wrun at e
    cases hs : wstep w op with
    | error x => rw [hs] at e; cases e
    | ok w1 =>
      rw [hs] at e
      have := ih (winv_step h (hop op (by simp)) hs) (fun x hx => hop x (by simp [hx])) e
      simpa using this

/-- Every writer satisfies the invariant. -/
theorem winv {K : Type} {ctz0 : Nat} {key1 key2 : Option K} {ops : List (WOp K)} {w : Writer K}
    (h : Writes ctz0 key1 key2 ops w) : WInv ctz0 key1 key2 ops w := by
  obtain ⟨hop, w0, h0, h1⟩ := h
  simpa using winv_run ops (winv_new ctz0 key1 key2 h0) hop h1

end Loc
