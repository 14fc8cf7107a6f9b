import Verif.Spec.Import
import Verif.Lemmas.Order
import Verif.Lemmas.Odd
import Verif.Lemmas.Added
import Verif.Props.Network
/-
Lemmas about the importer: an import is a history of calls on the writer, and which.
-/
namespace Loc
open Spec

/-! ## Choosing rows -/

theorem sqlPick_nil {α : Type} (c : Nat) : sqlPick c ([] : List α) = none := rfl

theorem sqlPick_mem {α : Type} (c : Nat) {l : List α} (h : l ≠ []) : ∃ x ∈ l, sqlPick c l = some x := by
  have hl : c % l.length < l.length := Nat.mod_lt _ (List.length_pos_iff.mpr h)
  exact ⟨l[c % l.length], List.getElem_mem hl, List.getElem?_eq_getElem hl⟩

theorem exists_max {α : Type} (f : α → Nat) : ∀ {l : List α}, l ≠ [] → ∃ x ∈ l, ∀ y ∈ l, f y ≤ f x := by
  intro l
  induction l with
  | nil => intro h; exact absurd rfl h
  | cons a l ih =>
    intro _
    by_cases hl : l = []
    · subst hl; exact ⟨a, List.mem_cons_self, fun y hy => by cases List.mem_singleton.mp hy; exact Nat.le_refl _⟩
    · obtain ⟨x, hx, hm⟩ := ih hl
      by_cases hc : f x ≤ f a
      · refine ⟨a, List.mem_cons_self, fun y hy => ?_⟩
        rcases List.mem_cons.mp hy with rfl | hy
        · exact Nat.le_refl _
        · exact Nat.le_trans (hm y hy) hc
      · refine ⟨x, List.mem_cons_of_mem _ hx, fun y hy => ?_⟩
        rcases List.mem_cons.mp hy with rfl | hy
        · omega
        · exact hm y hy

theorem sqlBest_says {α : Type} (c : Nat) {t : List (Network × α)} {n : Network} {a : Addr}
    (h : ∀ x ∈ t, (sqlContains x.1 n = true ↔ Contains x.1 a)) : SaysAt t a (sqlBest c t n) := by
  unfold sqlBest
  by_cases hl : (t.filter fun x => sqlContains x.1 n) = []
  · right
    refine ⟨fun y hy hc => ?_, ?_⟩
    · have := List.filter_eq_nil_iff.mp hl y hy
      exact this ((h y hy).mpr hc)
    · simp only [hl, List.filter_nil, sqlPick_nil, Option.map_none]
  · left
    obtain ⟨x, hx, hm⟩ := exists_max (fun x : Network × α => x.1.pfx) hl
    have hne : ((t.filter fun x => sqlContains x.1 n).filter fun x =>
        (t.filter fun x => sqlContains x.1 n).all fun y => decide (y.1.pfx ≤ x.1.pfx)) ≠ [] := by
      intro h0
      refine List.filter_eq_nil_iff.mp h0 x hx ?_
      exact List.all_eq_true.mpr fun y hy => decide_eq_true (hm y hy)
    obtain ⟨z, hz, hp⟩ := sqlPick_mem c hne
    obtain ⟨hz1, hz2⟩ := List.mem_filter.mp hz
    obtain ⟨hz3, hz4⟩ := List.mem_filter.mp hz1
    refine ⟨z.2, ⟨z.1, hz3, (h z hz3).mp hz4, fun y hy hc => ?_⟩, ?_⟩
    · have := List.all_eq_true.mp hz2 y (List.mem_filter.mpr ⟨hy, (h y hy).mpr hc⟩)
      exact of_decide_eq_true this
    · simp only [hp, Option.map_some]

theorem sqlOfAs_says {α : Type} (c : Nat) (t : List (Nat × α)) (asn : Option Nat) : SaysOf t asn (sqlOfAs c t asn) := by
  cases asn with
  | none => exact .inr ⟨(by intro k hk; cases hk), rfl⟩
  | some k =>
    unfold sqlOfAs
    by_cases hl : (t.filter fun x => decide (x.1 = k)) = []
    · right
      refine ⟨fun k' hk' y hy he => ?_, ?_⟩
      · cases hk'
        exact List.filter_eq_nil_iff.mp hl y hy (decide_eq_true he)
      · simp only [hl, sqlPick_nil, Option.map_none]
    · left
      obtain ⟨z, hz, hp⟩ := sqlPick_mem c hl
      obtain ⟨h1, h2⟩ := List.mem_filter.mp hz
      have h2 := of_decide_eq_true h2
      exact ⟨k, z.2, rfl, by rw [← h2]; exact h1, by simp only [hp, Option.map_some]⟩

/-! ## Networks of a row -/

/-- The network after the setters were called. -/
def rowNetwork (r : ImportRow) : Network :=
  match importNetwork r with
  | .ok (.ret n) => n
  | _ => r.network

theorem importCountryCode_ret {n n' : Network} {cc : Option CStr} (h : importCountryCode n cc = .ok (.ret n')) :
    (cc.getD [] = [] ∧ n' = n) ∨ ∃ c0 c1, cc = some [c0, c1] ∧ ValidCC [c0, c1] ∧ n' = { n with cc0 := c0, cc1 := c1 } ∧
      setCountryCode n (some [c0, c1]) = .ok n' := by
  cases cc with
  | none => left; cases h; exact ⟨rfl, rfl⟩
  | some s =>
    unfold importCountryCode at h
    cases s with
    | nil => left; cases h; exact ⟨rfl, rfl⟩
    | cons x s =>
      right
      simp only [List.isEmpty_cons, Bool.false_eq_true, if_false] at h
      split at h
      · cases h
      · cases h
      · rename_i m hm
        cases h
        rcases setCountryCode_cases hm with ⟨h1 | h1, -⟩ | ⟨c0, c1, h1, h2, h3⟩
        · cases h1
        · cases h1
        · cases h1
          exact ⟨_, _, rfl, h2, h3, hm⟩

theorem importAsn_ret {n n' : Network} {k : Option Nat} (h : importAsn n k = .ret n') :
    (k.getD 0 = 0 ∧ n' = n) ∨ ∃ x : Nat, k = some x ∧ x < 2 ^ 32 ∧ n' = setAsn n (BitVec.ofNat 32 x) := by
  cases k with
  | none => left; cases h; exact ⟨rfl, rfl⟩
  | some x =>
    unfold importAsn at h
    simp only at h
    split at h
    · rename_i h0; left; cases h; exact ⟨h0, rfl⟩
    · right
      unfold pySetAsn at h
      split at h
      · cases h
      · rename_i h1
        cases h
        refine ⟨x, rfl, by omega, ?_⟩
        rw [BitVec.ofInt_natCast]

theorem importFlag_eq (n : Network) (v : Option Bool) (f : BitVec 32) :
    importFlag n v f = { n with flags := n.flags ||| (if v = some true then f else 0) } := by
  unfold importFlag
  split
  · rfl
  · simp

theorem importFlag_built {ctz0 : Nat} {n : Network} (h : Built ctz0 n) (v : Option Bool) (f : BitVec 32) :
    Built ctz0 (importFlag n v f) := by
  unfold importFlag
  split
  · exact .flag f h
  · exact h

/-- What the setters do to a fresh network. -/
theorem importNetwork_ret {ctz0 : Nat} {r : ImportRow} {n' : Network} {a : Addr} {p : Nat} (hn : newNetwork a p = .ok r.network)
    (h : importNetwork r = .ok (.ret n')) :
    Built ctz0 n' ∧ n'.first = r.network.first ∧ n'.last = r.network.last ∧ n'.pfx = r.network.pfx ∧ Carries n' r.autnum r.marks := by
  obtain ⟨-, -, -, -, -, -, -, hp1, hp2, hp3⟩ := Props.new_canonical a p r.network hn
  have hb : Built ctz0 r.network := .new hn
  unfold importNetwork at h
  split at h
  · cases h
  · cases h
  · rename_i n1 h1
    split at h
    · cases h
    · rename_i n2 h2
      cases h
      have hb1 : Built ctz0 n1 := by
        rcases importCountryCode_ret h1 with ⟨-, rfl⟩ | ⟨_, _, _, _, _, h5⟩
        · exact hb
        · exact .country hb h5
      have hb2 : Built ctz0 n2 := by
        rcases importAsn_ret h2 with ⟨-, rfl⟩ | ⟨x, _, _, rfl⟩
        · exact hb1
        · exact .asn _ hb1
      refine ⟨importFlag_built (importFlag_built (importFlag_built (importFlag_built hb2 _ _) _ _) _ _) _ _, ?_⟩
      have hF : ∀ m : Network, m.flags = 0 → (importFlag (importFlag (importFlag (importFlag m r.marks.proxy FLAG_ANONYMOUS_PROXY)
          r.marks.satellite FLAG_SATELLITE_PROVIDER) r.marks.anycast FLAG_ANYCAST) r.marks.drop FLAG_DROP) =
          { m with flags := (if r.marks.proxy = some true then 1 else 0) ||| (if r.marks.satellite = some true then 2 else 0) |||
            (if r.marks.anycast = some true then 4 else 0) ||| (if r.marks.drop = some true then 8 else 0) } := by
        intro m hm
        have hz : ∀ x : BitVec 32, (0 : BitVec 32) ||| x = x := fun x => BitVec.zero_or
        simp only [importFlag_eq, hm, hz]
        rfl
      rcases importCountryCode_ret h1 with ⟨e1, rfl⟩ | ⟨c0, c1, e1, e2, rfl, -⟩ <;>
      rcases importAsn_ret h2 with ⟨f1, rfl⟩ | ⟨x, f1, f2, rfl⟩ <;> rw [hF _ (by simpa [setAsn] using hp3)]
      · refine ⟨rfl, rfl, rfl, ?_, ?_, rfl⟩
        · simp [props, hp1, e1]
        · simp [hp2, f1]
      · refine ⟨rfl, rfl, rfl, ?_, ?_, rfl⟩
        · simp [props, setAsn, hp1, e1]
        · simp only [setAsn, BitVec.toNat_ofNat, f1, Option.getD_some]
          exact Nat.mod_eq_of_lt f2
      · refine ⟨rfl, rfl, rfl, ?_, ?_, rfl⟩
        · obtain ⟨z1, z2⟩ := validCC_ne_zero e2
          show (if c0 = 0 then [] else if c1 = 0 then [c0] else [c0, c1]) = r.marks.country.getD []
          rw [if_neg z1, if_neg z2, e1]; rfl
        · simp [hp2, f1]
      · refine ⟨rfl, rfl, rfl, ?_, ?_, rfl⟩
        · obtain ⟨z1, z2⟩ := validCC_ne_zero e2
          show (if c0 = 0 then [] else if c1 = 0 then [c0] else [c0, c1]) = r.marks.country.getD []
          rw [if_neg z1, if_neg z2, e1]; rfl
        · simp only [setAsn, BitVec.toNat_ofNat, f1, Option.getD_some]
          exact Nat.mod_eq_of_lt f2

theorem rowNetwork_eq {r : ImportRow} {n : Network} (h : importNetwork r = .ok (.ret n)) : rowNetwork r = n := by
  unfold rowNetwork; rw [h]

/-! ## The calls of an import -/

section
variable {K : Type}

def metaOps (g : Option CStr → WOp K) (s : CStr) : List (WOp K) := if s.isEmpty then [] else [g (some s)]

def asOps (l : List (Nat × CStr)) : List (WOp K) :=
  l.flatMap fun x => if x.2.isEmpty then [] else [.addAs (BitVec.ofNat 32 x.1) (some x.2)]

def netOps (l : List ImportRow) : List (WOp K) :=
  l.flatMap fun r => [.addNetwork r.network, .changeNetwork r.network (rowNetwork r)]

def countryOps (l : List (CStr × CStr × CStr)) : List (WOp K) :=
  l.map fun x => .addCountry (some x.1) (some x.2.1) (some x.2.2)

def importOps (t : Tables) (c : Nat → Network → Nat) (rows : List Network) (vendor description license : CStr) : List (WOp K) :=
  metaOps .vendor vendor ++ (metaOps .description description ++ (metaOps .license license ++
    (asOps (importAsRows t) ++ (netOps (rows.map (importRowOf t c)) ++ countryOps t.countries))))

theorem importMeta_run {f : Writer K → Option CStr → Res (Writer K)} {g : Option CStr → WOp K}
    (hg : ∀ (w w' : Writer K) s, f w s = .ok w' → wstep w (g s) = .ok w') {w w' : Writer K} {s : CStr}
    (h : importMeta f w s = .ok (.ret w')) : wrun w (metaOps g s) = .ok w' := by
  unfold importMeta at h
  unfold metaOps
  split at h
  · rename_i hs
    rw [if_pos hs]; cases h; rfl
  · rename_i hs
    rw [if_neg hs]
    split at h
    · cases h
    · cases h
    · rename_i w1 hw
      cases h
      rw [wrun, hg _ _ _ hw]; rfl

theorem importAses_run : ∀ {l : List (Nat × CStr)} {w w' : Writer K}, importAses w l = .ret w' →
    wrun w (asOps l) = .ok w' ∧ ∀ x ∈ l, x.2 ≠ [] → x.1 < 2 ^ 31 := by
  intro l
  induction l with
  | nil => intro w w' h; cases h; exact ⟨rfl, fun x hx => nomatch hx⟩
  | cons x l ih =>
    obtain ⟨number, name⟩ := x
    intro w w' h
    unfold importAses at h
    unfold asOps
    rw [List.flatMap_cons]
    split at h
    · rename_i hs
      obtain ⟨h1, h2⟩ := ih h
      refine ⟨by rw [if_pos hs]; exact h1, fun x hx hne => ?_⟩
      rcases List.mem_cons.mp hx with rfl | hx
      · exact absurd (List.isEmpty_iff.mp hs) hne
      · exact h2 x hx hne
    · rename_i hs
      split at h
      · cases h
      · rename_i k hk
        have hk' : number < 2 ^ 31 ∧ k = BitVec.ofNat 32 number := by
          unfold argInt at hk
          split at hk
          · cases hk
          · cases hk
            exact ⟨by omega, BitVec.ofInt_natCast ..⟩
        obtain ⟨h1, h2⟩ := ih h
        refine ⟨?_, fun x hx hne => ?_⟩
        · rw [if_neg hs, List.singleton_append, wrun, wstep, ← hk'.2]
          exact h1
        · rcases List.mem_cons.mp hx with rfl | hx
          · exact hk'.1
          · exact h2 x hx hne

theorem importNetworks_run : ∀ {l : List ImportRow} {w w' : Writer K}, importNetworks w l = .ok (.ret w') →
    wrun w (netOps l) = .ok w' ∧ ∀ r ∈ l, importNetwork r = .ok (.ret (rowNetwork r)) := by
  intro l
  induction l with
  | nil => intro w w' h; cases h; exact ⟨rfl, fun x hx => nomatch hx⟩
  | cons r l ih =>
    intro w w' h
    unfold importNetworks at h
    unfold netOps
    rw [List.flatMap_cons]
    split at h
    · cases h
    · rename_i k w1 h1
      split at h
      · cases h
      · split at h
        · cases h
        · cases h
        · rename_i n hn
          obtain ⟨g1, g2⟩ := ih h
          refine ⟨?_, fun x hx => ?_⟩
          · rw [List.cons_append, List.cons_append, wrun, wstep, h1]
            simp only
            rw [wrun, wstep, rowNetwork_eq hn]
            exact g1
          · rcases List.mem_cons.mp hx with rfl | hx
            · rw [rowNetwork_eq hn]; exact hn
            · exact g2 x hx

theorem importCountries_run : ∀ {l : List (CStr × CStr × CStr)} {w w' : Writer K}, importCountries w l = .ok (.ret w') →
    wrun w (countryOps l) = .ok w' ∧ ∀ x ∈ l, ValidCC x.1 ∧ ∃ a b, x.2.1 = [a, b] := by
  intro l
  induction l with
  | nil => intro w w' h; cases h; exact ⟨rfl, fun x hx => nomatch hx⟩
  | cons x l ih =>
    obtain ⟨code, continent, name⟩ := x
    intro w w' h
    unfold importCountries at h
    unfold countryOps
    rw [List.map_cons]
    split at h
    · cases h
    · cases h
    · rename_i c hc
      split at h
      · cases h
      · cases h
      · rename_i c' hc'
        split at h
        · cases h
        · rename_i w1 hw
          obtain ⟨g1, g2⟩ := ih h
          refine ⟨?_, fun x hx => ?_⟩
          · rw [wrun, wstep, hw]; exact g1
          · rcases List.mem_cons.mp hx with rfl | hx
            · constructor
              · refine (ccIsValid_iff code).mp ?_
                unfold countryNew at hc
                split at hc
                · cases hc
                · rename_i hv; simpa using hv
              · simp only
                unfold countrySetContinent at hc'
                split at hc'
                · rename_i a b he; cases he; exact ⟨_, _, rfl⟩
                · cases hc'
            · exact g2 x hx

theorem importWrite_run {t : Tables} {c : Nat → Network → Nat} {rows : List Network} {vendor description license : CStr}
    {w w' : Writer K} (h : importWrite t c rows vendor description license w = .ok (.ret w')) :
    wrun w (importOps t c rows vendor description license) = .ok w' ∧
    (∀ x ∈ importAsRows t, x.2 ≠ [] → x.1 < 2 ^ 31) ∧
    (∀ r ∈ rows.map (importRowOf t c), importNetwork r = .ok (.ret (rowNetwork r))) ∧
    (∀ r ∈ rows.map (importRowOf t c), ∀ k, r.autnum = some k → k < 2 ^ 31) ∧
    (∀ x ∈ t.countries, ValidCC x.1 ∧ ∃ a b, x.2.1 = [a, b]) := by
  unfold importWrite at h
  split at h
  · cases h
  · cases h
  rename_i w1 h1
  split at h
  · cases h
  · cases h
  rename_i w2 h2
  split at h
  · cases h
  · cases h
  rename_i w3 h3
  split at h
  · cases h
  rename_i w4 h4
  simp only at h
  split at h
  · cases h
  rename_i hbig
  split at h
  · cases h
  · cases h
  rename_i w5 h5
  have r1 := importMeta_run (g := .vendor) (by intro w w' s hs; rw [wstep, hs]) h1
  have r2 := importMeta_run (g := .description) (by intro w w' s hs; rw [wstep, hs]) h2
  have r3 := importMeta_run (g := .license) (by intro w w' s hs; rw [wstep, hs]) h3
  obtain ⟨r4, q4⟩ := importAses_run h4
  obtain ⟨r5, q5⟩ := importNetworks_run h5
  obtain ⟨r6, q6⟩ := importCountries_run h
  refine ⟨?_, q4, q5, fun r hr k hk => ?_, q6⟩
  · unfold importOps
    rw [wrun_append, r1]; simp only
    rw [wrun_append, r2]; simp only
    rw [wrun_append, r3]; simp only
    rw [wrun_append, r4]; simp only
    rw [wrun_append, r5]; simp only
    exact r6
  · refine Classical.byContradiction fun hge => hbig ?_
    refine List.any_eq_true.mpr ⟨r, hr, ?_⟩
    rw [hk]
    simp only [Option.any_some, decide_eq_true_eq]
    omega

/-! ## What the calls mean -/

theorem mem_importOps {t : Tables} {c : Nat → Network → Nat} {rows : List Network} {vendor description license : CStr} {op : WOp K}
    (h : op ∈ importOps t c rows vendor description license) :
    op = .vendor (some vendor) ∨ op = .description (some description) ∨ op = .license (some license) ∨
    (∃ x ∈ importAsRows t, op = .addAs (BitVec.ofNat 32 x.1) (some x.2)) ∨
    (∃ r ∈ rows.map (importRowOf t c), op = .addNetwork r.network ∨ op = .changeNetwork r.network (rowNetwork r)) ∨
    ∃ x ∈ t.countries, op = .addCountry (some x.1) (some x.2.1) (some x.2.2) := by
  have hm : ∀ (g : Option CStr → WOp K) s, op ∈ metaOps g s → op = g (some s) := by
    intro g s h
    unfold metaOps at h
    split at h
    · cases h
    · exact List.mem_singleton.mp h
  unfold importOps at h
  simp only [List.mem_append] at h
  rcases h with h | h | h | h | h | h
  · exact .inl (hm _ _ h)
  · exact .inr (.inl (hm _ _ h))
  · exact .inr (.inr (.inl (hm _ _ h)))
  · obtain ⟨x, hx, h⟩ := List.mem_flatMap.mp h
    split at h
    · cases h
    · exact .inr (.inr (.inr (.inl ⟨x, hx, List.mem_singleton.mp h⟩)))
  · obtain ⟨r, hr, h⟩ := List.mem_flatMap.mp h
    refine .inr (.inr (.inr (.inr (.inl ⟨r, hr, ?_⟩))))
    rcases List.mem_cons.mp h with h | h
    · exact .inl h
    · exact .inr (List.mem_singleton.mp h)
  · obtain ⟨x, hx, h⟩ := List.mem_map.mp h
    exact .inr (.inr (.inr (.inr (.inr ⟨x, hx, h.symm⟩))))

theorem foldl_stay {α σ : Type} {f : σ → α → σ} : ∀ (l : List α) (s : σ), (∀ s, ∀ x ∈ l, f s x = s) → l.foldl f s = s := by
  intro l
  induction l with
  | nil => intro s _; rfl
  | cons x l ih =>
    intro s h
    rw [List.foldl_cons, h s x List.mem_cons_self]
    exact ih s fun s y hy => h s y (List.mem_cons_of_mem _ hy)

theorem netOps_networks : ∀ (rs : List ImportRow) (l : List Network), (∀ m ∈ l, ∀ r ∈ rs, ¬ SameBlock m r.network) →
    rs.Pairwise (fun a b => ¬ SameBlock a.network b.network) → (∀ r ∈ rs, SameBlock (rowNetwork r) r.network) →
    (netOps (K := K) rs).foldl networkStep l = l ++ rs.map rowNetwork := by
  intro rs
  induction rs with
  | nil => intro l _ _ _; simp [netOps]
  | cons r rs ih =>
    intro l h1 h2 h3
    have hstep : networkStep (K := K) (networkStep (K := K) l (.addNetwork r.network)) (.changeNetwork r.network (rowNetwork r)) =
        l ++ [rowNetwork r] := by
      have e1 : networkStep (K := K) l (.addNetwork r.network) = l ++ [r.network] := by
        rw [networkStep, if_neg]
        rintro ⟨m, hm, hs⟩
        exact h1 m hm r List.mem_cons_self hs
      rw [e1]
      rw [networkStep, List.map_append]
      congr 1
      · refine (List.map_congr_left fun k hk => ?_).trans (List.map_id _)
        rw [if_neg]
        · rfl
        · rintro rfl
          exact h1 _ hk r List.mem_cons_self ⟨rfl, rfl⟩
      · simp
    have : netOps (K := K) (r :: rs) = .addNetwork r.network :: .changeNetwork r.network (rowNetwork r) :: netOps rs := rfl
    rw [this, List.foldl_cons, List.foldl_cons, hstep, ih]
    · simp
    · intro m hm r' hr' hs
      rcases List.mem_append.mp hm with hm | hm
      · exact h1 m hm r' (List.mem_cons_of_mem _ hr') hs
      · cases List.mem_singleton.mp hm
        have := h3 r List.mem_cons_self
        exact (List.pairwise_cons.mp h2).1 r' hr' ⟨this.1.symm.trans hs.1, this.2.symm.trans hs.2⟩
    · exact (List.pairwise_cons.mp h2).2
    · exact fun r' hr' => h3 r' (List.mem_cons_of_mem _ hr')

theorem asOps_ases : ∀ (l : List (Nat × CStr)) (m : BitVec 32 → Option (Option CStr)) (k : BitVec 32),
    ((asOps (K := K) l).foldl asStep m) k =
      (m k).or ((l.find? fun x => !x.2.isEmpty && decide (BitVec.ofNat 32 x.1 = k)).map fun x => some x.2) := by
  intro l
  induction l with
  | nil => intro m k; simp [asOps]
  | cons x l ih =>
    intro m k
    have hc : asOps (K := K) (x :: l) = (if x.2.isEmpty then [] else [.addAs (BitVec.ofNat 32 x.1) (some x.2)]) ++ asOps l := rfl
    rw [hc, List.foldl_append, ih]
    by_cases hx : x.2.isEmpty = true
    · rw [if_pos hx, List.find?_cons_of_neg (by simp [hx])]; rfl
    · rw [if_neg hx]
      simp only [List.foldl_cons, List.foldl_nil, asStep]
      by_cases hk : BitVec.ofNat 32 x.1 = k
      · rw [List.find?_cons_of_pos (by simp [hx, hk])]
        cases hm : m k with
        | none => rw [if_pos ⟨hk.symm, rfl⟩]; simp
        | some y => rw [if_neg (by simp)]; simp
      · rw [List.find?_cons_of_neg (by simp [hk]), if_neg (fun h => hk h.1.symm)]

theorem countryOps_countries : ∀ (l : List (CStr × CStr × CStr)) (m : CStr → Option (Option CStr × Option CStr)) (k : CStr),
    (∀ x ∈ l, ValidCC x.1) →
    ((countryOps (K := K) l).foldl countryStep m) k =
      (m k).or ((l.find? fun x => decide (x.1 = k)).map fun x => (keptContinent (some x.2.1), some x.2.2)) := by
  intro l
  induction l with
  | nil => intro m k _; simp [countryOps]
  | cons x l ih =>
    intro m k hv
    have hc : countryOps (K := K) (x :: l) = .addCountry (some x.1) (some x.2.1) (some x.2.2) :: countryOps l := rfl
    rw [hc, List.foldl_cons, ih _ _ fun y hy => hv y (List.mem_cons_of_mem _ hy)]
    simp only [countryStep]
    by_cases hk : x.1 = k
    · rw [List.find?_cons_of_pos (by simp [hk])]
      cases hm : m k with
      | none => rw [if_pos ⟨hk.symm, hv x List.mem_cons_self, rfl⟩]; simp
      | some y => rw [if_neg (by simp)]; simp
    · rw [List.find?_cons_of_neg (by simp [hk]), if_neg (fun h => hk h.1.symm)]

/-! ## When an import succeeds -/

theorem importMeta_total {ctz0 : Nat} {key1 key2 : Option K} {done : List (WOp K)} {f : Writer K → Option CStr → Res (Writer K)}
    {g : Option CStr → WOp K} (hf : ∀ (w : Writer K) x r, poolAdd w.pool x = .ok r → ∃ w', f w (some x) = .ok w')
    (hg : ∀ (w w' : Writer K) s, f w s = .ok w' → wstep w (g s) = .ok w') {w : Writer K} (hi : WInv ctz0 key1 key2 done w) {s : CStr}
    (hs : (0 : Byte) ∉ s) (hl : s.length < 512 * 1024) (hok : OpOk ctz0 (g (some s))) :
    ∃ w', importMeta f w s = .ok (.ret w') ∧ WInv ctz0 key1 key2 (done ++ metaOps g s) w' := by
  obtain ⟨w', h⟩ : ∃ w', importMeta f w s = .ok (.ret w') := by
    unfold importMeta
    split
    · exact ⟨_, rfl⟩
    · obtain ⟨ss, p1, -⟩ := hi.pool
      obtain ⟨off, p', e⟩ := poolAdd_total p1 hi.size (s := s) hs hl
      obtain ⟨w', e'⟩ := hf w s _ e
      rw [e']; exact ⟨_, rfl⟩
  refine ⟨w', h, winv_run _ hi ?_ (importMeta_run hg h)⟩
  intro op hop
  unfold metaOps at hop
  split at hop
  · cases hop
  · cases List.mem_singleton.mp hop; exact hok

theorem importAses_total : ∀ {l : List (Nat × CStr)} (w : Writer K), (∀ x ∈ l, x.2 ≠ [] → x.1 < 2 ^ 31) → ∃ w', importAses w l = .ret w' := by
  intro l
  induction l with
  | nil => intro w _; exact ⟨w, rfl⟩
  | cons x l ih =>
    obtain ⟨number, name⟩ := x
    intro w h
    unfold importAses
    split
    · exact ih w fun x hx => h x (List.mem_cons_of_mem _ hx)
    · rename_i hne
      have hlt : number < 2 ^ 31 := h (number, name) List.mem_cons_self fun h0 => hne (List.isEmpty_iff.mpr h0)
      have : argInt (number : Int) = .ret (BitVec.ofInt 32 number) := by
        unfold argInt
        rw [if_neg (by omega)]
      rw [this]
      exact ih _ fun x hx => h x (List.mem_cons_of_mem _ hx)

theorem importNetworks_total {ctz0 : Nat} (h0 : 8 ≤ ctz0) {key1 key2 : Option K} : ∀ {rs : List ImportRow} {done : List (WOp K)} {w : Writer K} {l : List Network},
    WInv ctz0 key1 key2 done w → (∀ k, k ∈ w.networks.networks ↔ k ∈ l) →
    (∀ m ∈ l, ∀ r ∈ rs, ¬ SameBlock m r.network) → rs.Pairwise (fun a b => ¬ SameBlock a.network b.network) →
    (∀ r ∈ rs, Built ctz0 r.network ∧ importNetwork r = .ok (.ret (rowNetwork r)) ∧ Built ctz0 (rowNetwork r) ∧ SameBlock (rowNetwork r) r.network) →
    ∃ w', importNetworks w rs = .ok (.ret w') := by
  intro rs
  induction rs with
  | nil => intro done w l _ _ _ _ _; exact ⟨w, rfl⟩
  | cons r rs ih =>
    intro done w l hi hl h1 h2 h3
    obtain ⟨b1, b2, b3, b4⟩ := h3 r List.mem_cons_self
    obtain ⟨k, t', ht, g1, -⟩ := Props.add_network_set ctz0 h0 hi.reach b1
    have hno : ¬ ∃ m ∈ w.networks.networks, SameBlock m r.network := by
      rintro ⟨m, hm, hs⟩
      exact h1 m ((hl m).mp hm) r List.mem_cons_self hs
    obtain ⟨g1, -⟩ := g1 hno
    subst g1
    have e1 : addNetwork w r.network = .ok (0, { w with networks := t' }) := by unfold addNetwork; rw [ht]
    have s1 : wstep w (.addNetwork r.network) = .ok { w with networks := t' } := by rw [wstep, e1]
    have s2 : wstep { w with networks := t' } (.changeNetwork r.network (rowNetwork r)) = .ok { w with networks := t'.replace r.network (rowNetwork r) } := rfl
    have m1 := step_networks h0 hi.reach hl (op := .addNetwork r.network) b1 rfl s1
    have i1 := winv_step hi (op := .addNetwork r.network) b1 s1
    have m2 := step_networks h0 i1.reach m1 (op := .changeNetwork r.network (rowNetwork r)) ⟨b3, b4⟩ rfl s2
    have i2 := winv_step i1 (op := .changeNetwork r.network (rowNetwork r)) ⟨b3, b4⟩ s2
    unfold importNetworks
    rw [e1]
    simp only [ne_eq, not_true_eq_false, if_false, b2]
    refine ih i2 m2 ?_ (List.pairwise_cons.mp h2).2 fun r' hr' => h3 r' (List.mem_cons_of_mem _ hr')
    intro m hm r' hr' hs
    have hadd : networkStep (K := K) l (.addNetwork r.network) = l ++ [r.network] := by
      rw [networkStep, if_neg]
      rintro ⟨m, hm, hs⟩
      exact h1 m hm r List.mem_cons_self hs
    rw [hadd, networkStep, List.mem_map] at hm
    obtain ⟨k, hk, rfl⟩ := hm
    have hsr : SameBlock r.network r'.network → False := (List.pairwise_cons.mp h2).1 r' hr'
    split at hs
    · exact hsr ⟨b4.1.symm.trans hs.1, b4.2.symm.trans hs.2⟩
    · rename_i hne
      rcases List.mem_append.mp hk with hk | hk
      · exact h1 k hk r' (List.mem_cons_of_mem _ hr') hs
      · exact hne (List.mem_singleton.mp hk)

theorem importCountries_total : ∀ {l : List (CStr × CStr × CStr)} (w : Writer K), (∀ x ∈ l, ValidCC x.1 ∧ ∃ a b, x.2.1 = [a, b]) →
    ∃ w', importCountries w l = .ok (.ret w') := by
  intro l
  induction l with
  | nil => intro w _; exact ⟨w, rfl⟩
  | cons x l ih =>
    obtain ⟨code, continent, name⟩ := x
    intro w h
    obtain ⟨hv, a, b, hc⟩ := h (code, continent, name) List.mem_cons_self
    simp only at hv hc
    subst hc
    have hv' := (ccIsValid_iff code).mpr hv
    obtain ⟨c0, c1, rfl, -⟩ := hv
    have e1 : countryNew (some [c0, c1]) = .ok ⟨c0, c1, 0, 0, none⟩ := by
      unfold countryNew; rw [if_neg (by simp [hv'])]
    unfold importCountries
    rw [e1]
    simp only [countrySetContinent, addCountry, e1]
    exact ih _ fun x hx => h x (List.mem_cons_of_mem _ hx)

end

end Loc
