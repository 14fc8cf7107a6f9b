import Verif.Lemmas.Bogon
import Verif.Spec.Enum
/-
The bogons between networks are the gaps.
-/
namespace Loc
open Spec

def minF : Family → Nat
  | .inet => 0xffff00000000
  | .inet6 => 0

def maxF : Family → Nat
  | .inet => 0xffffffffffff
  | .inet6 => 2 ^ 128 - 1

theorem addrFamily_inet {a : Addr} : addrFamily a = .inet ↔ IsV4 a := by
  unfold addrFamily
  rw [isV4Mapped_eq_decide]
  by_cases h : IsV4 a <;> simp [h]

theorem addrFamily_inet6 {a : Addr} : addrFamily a = .inet6 ↔ ¬ IsV4 a := by
  unfold addrFamily
  rw [isV4Mapped_eq_decide]
  by_cases h : IsV4 a <;> simp [h]

theorem famMin_eq {a : Addr} {F : Family} (h : addrFamily a = F) : famMin a = minF F := by
  unfold famMin
  cases F with
  | inet => rw [if_pos (addrFamily_inet.mp h)]; rfl
  | inet6 => rw [if_neg (addrFamily_inet6.mp h)]; rfl

theorem famMax_eq {a : Addr} {F : Family} (h : addrFamily a = F) : famMax a = maxF F := by
  unfold famMax
  cases F with
  | inet => rw [if_pos (addrFamily_inet.mp h)]; rfl
  | inet6 => rw [if_neg (addrFamily_inet6.mp h)]; rfl

theorem fam_range {a : Addr} {F : Family} (h : addrFamily a = F) : minF F ≤ value a ∧ value a ≤ maxF F := by
  cases F with
  | inet =>
    have := addrFamily_inet.mp h
    unfold IsV4 at this
    simp only [Nat.reducePow] at this
    show 0xffff00000000 ≤ value a ∧ value a ≤ 0xffffffffffff
    omega
  | inet6 =>
    have := value_lt a
    show 0 ≤ value a ∧ value a ≤ 2 ^ 128 - 1
    omega

theorem first_fam {n : Network} (h : Block n) : addrFamily n.first = n.family := by
  have := h.fam
  cases e : n.family with
  | inet => exact addrFamily_inet.mpr (this.mp e)
  | inet6 => exact addrFamily_inet6.mpr (fun hv => by have := this.mpr hv; rw [e] at this; cases this)

theorem last_fam4 {n : Network} (h : Block n) (h4 : n.family = .inet) {x : Addr} (hx : Contains n x) : addrFamily x = .inet := by
  have h1 := first_fam h
  rw [h4] at h1
  have h2 := addrFamily_inet.mp h1
  have h3 := block_v4_pfx h h4
  rw [addrFamily_inet]
  have h5 : 2 ^ (128 - n.pfx) ∣ 2 ^ 32 := Nat.pow_dvd_pow 2 (by omega)
  obtain ⟨k, hk⟩ := h5
  have hal := h.aligned
  have hle := h.last_eq
  unfold Contains at hx
  unfold IsV4 at *
  have hpos : 0 < 2 ^ (128 - n.pfx) := Nat.pow_pos (by decide)
  generalize 2 ^ (128 - n.pfx) = B at *
  generalize value n.first = f at *
  generalize value n.last = la at *
  generalize value x = v at *
  rw [hk] at h2 ⊢
  have e1 : f / (B * k) = f / B / k := (Nat.div_div_eq_div_mul ..).symm
  have e2 : v / (B * k) = v / B / k := (Nat.div_div_eq_div_mul ..).symm
  have e3 : v / B = f / B := by
    obtain ⟨q, rfl⟩ := Nat.dvd_of_mod_eq_zero hal
    rw [Nat.mul_div_cancel_left _ hpos]
    rw [Nat.div_eq_iff hpos]
    constructor
    · rw [Nat.mul_comm]; omega
    · rw [Nat.mul_comm]; omega
  rw [e2, e3, ← e1]
  exact h2

/-- ::ffff:0:0/96 -/
def v4Block : Network := ⟨.inet, addrReset .inet, addrResetLast .inet, 96, 0, 0, 0, 0⟩

theorem v4Block_block : Block v4Block := by decide

/-- An IPv6 network that is not ::/p and can be enumerated contains no IPv4 addresses. -/
theorem noV4 {n : Network} (h : Block n) (h6 : n.family = .inet6) (ha : ¬ AroundV4 n) (h0 : value n.first ≠ 0) {x : Addr} (hx : Contains n x) :
    addrFamily x = .inet6 := by
  rw [addrFamily_inet6]
  intro hv
  have hxv : Contains v4Block x := by
    have hlo : value v4Block.first = 0xffff00000000 := by decide
    have hhi : value v4Block.last = 0xffffffffffff := by decide
    unfold Contains
    rw [hlo, hhi]
    unfold IsV4 at hv
    simp only [Nat.reducePow] at hv
    omega
  have hlo : value v4Block.first = 0xffff00000000 := by decide
  have hhi : value v4Block.last = 0xffffffffffff := by decide
  have hf6 := addrFamily_inet6.mp ((first_fam h).trans h6)
  rcases Nat.le_total v4Block.pfx n.pfx with hp | hp
  · have h1 := share_path v4Block_block h hxv hx hp
    have h2 := inside_range h ((inside_iff_path h v4Block_block).mpr h1)
    have h3 := h.last_eq
    rw [hlo, hhi] at h2
    refine hf6 ?_
    unfold IsV4
    simp only [Nat.reducePow]
    omega
  · have h1 := share_path h v4Block_block hx hxv hp
    have h2 := inside_range v4Block_block ((inside_iff_path v4Block_block h).mpr h1)
    rw [hlo, hhi] at h2
    have hp : n.pfx ≤ 96 := hp
    have hal := h.aligned
    by_cases h80 : n.pfx ≤ 80
    · have h5 : 2 ^ 48 ≤ 2 ^ (128 - n.pfx) := Nat.pow_le_pow_right (by decide) (by omega)
      rw [Nat.mod_eq_of_lt (by simp only [Nat.reducePow] at h5; omega)] at hal
      exact h0 hal
    · by_cases h96 : n.pfx = 96
      · have h3 := h.last_eq
        rw [h96] at h3
        simp only [Nat.reduceSub, Nat.reducePow] at h3
        rw [h96] at hal
        simp only [Nat.reduceSub, Nat.reducePow] at hal
        refine hf6 ?_
        unfold IsV4
        simp only [Nat.reducePow]
        omega
      · exact ha ⟨by omega, by omega, h2.1, h2.2⟩

/-- The networks. -/
structure BSet (C : List Network) : Prop where
  asc : Ascending C
  blk : ∀ n ∈ C, Block n
  around : ∀ n ∈ C, ¬ AroundV4 n

/-- `g` is where the next gap of the family starts, after the networks `D`. -/
structure FInv (F : Family) (g : Addr) (D : List Network) : Prop where
  fam : addrFamily g = F
  start : value g = minF F ∨ ∃ d ∈ D, d.family = F ∧ addrFamily d.last = F ∧ value d.last + 1 = value g
  any : (∃ d ∈ D, d.family = F ∧ minF F < value d.last) → value g ≠ minF F

theorem FInv.skip {F : Family} {g : Addr} {D : List Network} (h : FInv F g D) (n : Network) (hn : n.family = F → value n.last ≤ value g) :
    FInv F g (D ++ [n]) := by
  refine ⟨h.fam, h.start.imp id (fun ⟨d, hd, h⟩ => ⟨d, List.mem_append_left _ hd, h⟩), ?_⟩
  rintro ⟨d, hd, h1, h2⟩
  rcases List.mem_append.mp hd with hd | hd
  · exact h.any ⟨d, hd, h1, h2⟩
  · rw [List.mem_singleton] at hd
    subst hd
    have := hn h1
    omega

theorem inc_fam {a : Addr} {F : Family} (h : addrFamily a = F) (h1 : value a ≠ maxF F) (h2 : value a ≠ 0xfffeffffffff) :
    addrFamily (addrInc a) = F ∧ value (addrInc a) = value a + 1 := by
  have hv : value (addrInc a) = value a + 1 := value_addrInc_of_ne (by rw [famMax_eq h]; exact h1)
  refine ⟨?_, hv⟩
  have hr := fam_range h
  cases F with
  | inet =>
    have := addrFamily_inet.mp h
    rw [addrFamily_inet]
    unfold IsV4 at *
    rw [hv]
    unfold maxF at h1
    simp only [Nat.reducePow] at *
    omega
  | inet6 =>
    have := addrFamily_inet6.mp h
    rw [addrFamily_inet6]
    unfold IsV4 at *
    rw [hv]
    simp only [Nat.reducePow] at *
    omega

theorem FInv.next {F : Family} {D : List Network} {n : Network} (hf : n.family = F) (hl : addrFamily n.last = F)
    (h1 : value n.last ≠ maxF F) (h2 : value n.last ≠ 0xfffeffffffff) : FInv F (addrInc n.last) (D ++ [n]) := by
  obtain ⟨h3, h4⟩ := inc_fam hl h1 h2
  refine ⟨h3, .inr ⟨n, List.mem_append_right _ (by simp), hf, hl, h4.symm⟩, ?_⟩
  intro _
  have := (fam_range hl).1
  omega

/-- A network that is not skipped starts at the gap or later. -/
theorem gap_le {C D l : List Network} {n : Network} {g : Addr} (hC : BSet C) (hs : C = D ++ n :: l) (hi : FInv n.family g D)
    (hlt : value g < value n.last) : value g ≤ value n.first := by
  have hnC : n ∈ C := by rw [hs]; simp
  have hbn := hC.blk n hnC
  by_contra hgt
  rcases hi.start with h | ⟨d, hd, h1, h2, h3⟩
  · have := (fam_range (first_fam hbn)).1
    omega
  · have hdC : d ∈ C := by rw [hs]; exact List.mem_append_left _ hd
    have hbd := hC.blk d hdC
    have hbef : Before d n := by
      have := hC.asc
      rw [hs] at this
      exact (List.pairwise_append.mp this).2.2 d hd n (by simp)
    have hc1 : Contains d n.first := by
      refine ⟨?_, by omega⟩
      unfold Before at hbef
      omega
    have hc2 : Contains n n.first := ⟨Nat.le_refl _, by have := hbn.last_eq; omega⟩
    rcases Nat.le_total d.pfx n.pfx with hp | hp
    · have h4 := share_path hbd hbn hc1 hc2 hp
      have := (inside_range hbn ((inside_iff_path hbn hbd).mpr h4)).2
      omega
    · exact not_before_of_path hbd hbn (share_path hbn hbd hc2 hc1 hp) hbef

/-- What a successful step means. -/
theorem step_ok {C D l : List Network} {n : Network} {g : Addr} {s : NetList} (hC : BSet C) (hs : C = D ++ n :: l) (hi : FInv n.family g D)
    (hlt : value g < value n.last) (hp : pushGap g (addrDec n.first) [] = .ok (some s)) :
    value n.first ≠ minF n.family ∧ addrFamily n.last = n.family ∧
    ((value g = value n.first ∧ s = []) ∨
     (addrFamily (addrDec n.first) = n.family ∧ value g < value (addrDec n.first) ∧ value (addrDec n.first) + 1 = value n.first)) := by
  have hnC : n ∈ C := by rw [hs]; simp
  have hbn := hC.blk n hnC
  have hle := gap_le hC hs hi hlt
  have hff := first_fam hbn
  have hr := fam_range hff
  have hgr := fam_range hi.fam
  have hmin : value n.first ≠ minF n.family := by
    intro he
    have hd : value (addrDec n.first) = value n.first := by
      have : allZeroes n.first = true := by rw [allZeroes_iff_value, famMin_eq hff]; exact he
      unfold addrDec
      rw [if_pos this]
    rw [pushGap_fails (by omega) (.inr (by omega))] at hp
    cases hp
  have hlast : addrFamily n.last = n.family := by
    have hcl : Contains n n.last := ⟨by have := hbn.last_eq; omega, Nat.le_refl _⟩
    cases e : n.family with
    | inet => exact last_fam4 hbn e hcl
    | inet6 => exact noV4 hbn e (hC.around n hnC) (by rw [e] at hmin; exact hmin) hcl
  refine ⟨hmin, hlast, ?_⟩
  have hbad : value n.first ≠ 0xff0000000000 := by
    intro he
    have hfeq : n.first = #v[0,0,0,0, 0,0,0,0, 0,0,0xff,0, 0,0,0,0] := value_inj (by rw [he]; decide)
    have h6 : n.family = .inet6 := by rw [← hff, hfeq]; decide
    have hd : addrDec n.first = addrResetLast .inet := by rw [hfeq]; decide
    rw [hd, pushGap_fails (by rw [show value (addrResetLast .inet) = 0xffffffffffff by decide]; omega)
      (.inl (by rw [hi.fam, h6]; decide))] at hp
    cases hp
  have hdec : value (addrDec n.first) = value n.first - 1 := by
    rw [value_addrDec _ hbad, famMin_eq hff, if_neg hmin]
  rcases pushGap_cases g (addrDec n.first) (list := []) .nil (by simp) with ⟨h1, -⟩ | ⟨h1, h2⟩ | ⟨h1, h2, -⟩
  · rw [h1] at hp
    cases hp
  · rw [h2] at hp
    cases hp
    exact .inl ⟨by omega, rfl⟩
  · exact .inr ⟨h1.symm.trans hi.fam, h2, by omega⟩

theorem coversF_append {F : Family} {s R : List Network} {x : Addr} : CoversF F (s ++ R) x ↔ CoversF F s x ∨ CoversF F R x := by
  unfold CoversF
  simp only [List.mem_append, or_and_right, exists_or]

theorem gapOf_if {g6 g4 a : Addr} {F G : Family} :
    gapOf (if F = Family.inet6 then a else g6) (if F = Family.inet then a else g4) G = if G = F then a else gapOf g6 g4 G := by
  cases F <;> cases G <;> rfl

theorem bogL_cons_skip {n : Network} {l : List Network} {g6 g4 : Addr} (h : value n.last ≤ value (gapOf g6 g4 n.family)) :
    bogL (n :: l) g6 g4 = bogL l g6 g4 := by
  rw [bogL, if_pos (addrCmp_nonneg.mpr h)]

theorem bogL_cons {n : Network} {l : List Network} {g6 g4 : Addr} (h : value (gapOf g6 g4 n.family) < value n.last) {R : List Network} {b : Bool}
    (hb : bogL (n :: l) g6 g4 = .ok (R, b)) :
    (pushGap (gapOf g6 g4 n.family) (addrDec n.first) [] = .ok none ∧ R = [] ∧ b = false) ∨
    ∃ s R', pushGap (gapOf g6 g4 n.family) (addrDec n.first) [] = .ok (some s) ∧
      bogL l (if n.family = Family.inet6 then addrInc n.last else g6) (if n.family = Family.inet then addrInc n.last else g4) = .ok (R', b) ∧ R = s ++ R' := by
  rw [bogL, if_neg (mt addrCmp_nonneg.mp (by omega))] at hb
  cases hp : pushGap (gapOf g6 g4 n.family) (addrDec n.first) [] with
  | error x => rw [hp] at hb; cases hb
  | ok o =>
    rw [hp] at hb
    cases o with
    | none => cases hb; exact .inl ⟨rfl, rfl, rfl⟩
    | some s =>
      simp only at hb
      cases hr : bogL l (if n.family = Family.inet6 then addrInc n.last else g6) (if n.family = Family.inet then addrInc n.last else g4) with
      | error x => rw [hr] at hb; cases hb
      | ok p =>
        obtain ⟨R', b'⟩ := p
        rw [hr] at hb
        cases hb
        exact .inr ⟨s, R', rfl, rfl, rfl⟩

theorem resetLast_fam (F : Family) : addrFamily (addrResetLast F) = F ∧ value (addrResetLast F) = maxF F := by
  cases F <;> decide +kernel

/-- A gap that starts at the last address of the family makes the enumeration fail. -/
theorem bog_saturated {F : Family} : ∀ (l : List Network) (g6 g4 : Addr) (R : List Network) (b : Bool), (∀ n ∈ l, Block n) →
    (∀ n ∈ l, n.family = F → value n.last ≤ maxF F) →
    addrFamily (gapOf g6 g4 F) = F → value (gapOf g6 g4 F) = maxF F → bogL l g6 g4 = .ok (R, b) → b = false := by
  intro l
  induction l with
  | nil =>
    intro g6 g4 R b _ _ hf hv hb
    have hz : allZeroes (gapOf g6 g4 F) = false := by
      rw [← Bool.not_eq_true, allZeroes_iff_value, famMin_eq hf, hv]
      cases F <;> decide
    have hfail : ∀ s, pushGap (gapOf g6 g4 F) (addrResetLast F) s = .ok none := fun s =>
      pushGap_fails (by rw [hv, (resetLast_fam F).2]) (.inr (by rw [hv, (resetLast_fam F).2])) s
    rw [bogL, finishL] at hb
    cases F with
    | inet6 =>
      rw [show g6 = gapOf g6 g4 .inet6 from rfl, hz, Bool.not_false, if_pos rfl, hfail] at hb
      cases hb
      rfl
    | inet =>
      split at hb
      · cases hb
      · cases hb; rfl
      · rename_i s hs
        split at hs
        · cases hs
        · cases hs
        · rw [show g4 = gapOf g6 g4 .inet from rfl, hz, Bool.not_false, if_pos rfl, hfail] at hs
          cases hs
  | cons n l ih =>
    intro g6 g4 R b hbl hm hf hv hb
    have hbl' : ∀ m ∈ l, Block m := fun m hm' => hbl m (List.mem_cons_of_mem _ hm')
    have hm' : ∀ m ∈ l, m.family = F → value m.last ≤ maxF F := fun m h => hm m (List.mem_cons_of_mem _ h)
    rcases Nat.lt_or_ge (value (gapOf g6 g4 n.family)) (value n.last) with h | h
    · rcases bogL_cons h hb with ⟨-, -, h⟩ | ⟨s, R', h1, h2, rfl⟩
      · exact h
      · have hne : F ≠ n.family := by
          rintro rfl
          have := hm n List.mem_cons_self rfl
          omega
        refine ih _ _ R' b hbl' hm' ?_ ?_ h2
        · rw [gapOf_if, if_neg hne]; exact hf
        · rw [gapOf_if, if_neg hne]; exact hv
    · rw [bogL_cons_skip h] at hb
      exact ih g6 g4 R b hbl' hm' hf hv hb

/-! ### Completeness -/

/-- A successful end of the enumeration covers the gaps at the end. -/
theorem finish_covers {g6 g4 : Addr} {s : NetList} (h : finishL g6 g4 = .ok (some s)) {F : Family} (hf6 : addrFamily g6 = .inet6) (hf4 : addrFamily g4 = .inet)
    (hz : value (gapOf g6 g4 F) ≠ minF F) {x : Addr} (hx : addrFamily x = F) (hge : value (gapOf g6 g4 F) ≤ value x) : CoversF F s x := by
  have hz' : ∀ G, addrFamily (gapOf g6 g4 G) = G := by
    intro G
    cases G
    · exact hf4
    · exact hf6
  have hnz : allZeroes (gapOf g6 g4 F) = false := by
    rw [← Bool.not_eq_true, allZeroes_iff_value, famMin_eq (hz' F)]
    exact hz
  have hxm : value x ≤ value (addrResetLast F) := by rw [(resetLast_fam F).2]; exact (fam_range hx).2
  -- one summary that succeeded
  have one : ∀ (G : Family) (st s' : NetList), Ascending st → (∀ m ∈ st, Block m) → pushGap (gapOf g6 g4 G) (addrResetLast G) st = .ok (some s') →
      Ascending s' ∧ (∀ m ∈ s', Block m) ∧ (∀ H y, CoversF H st y → CoversF H s' y) ∧
      (G = F → CoversF F s' x) := by
    intro G st s' ha hb hp
    rcases pushGap_cases (gapOf g6 g4 G) (addrResetLast G) ha hb with ⟨h1, -⟩ | ⟨h1, h2⟩ | ⟨h1, h2, -⟩
    · rw [h1] at hp; cases hp
    · rw [h2] at hp
      cases hp
      refine ⟨ha, hb, fun _ _ h => h, ?_⟩
      rintro rfl
      omega
    · obtain ⟨l', S, k1, k2, k3, k4, k5, -⟩ := pushGap_ok h1 h2 ha hb
      rw [k1] at hp
      cases hp
      refine ⟨k2, k3, fun H y hy => (k4 H y).mpr (.inl hy), ?_⟩
      rintro rfl
      exact (k4 G x).mpr (.inr ⟨hz' G, k5 x hge hxm⟩)
  unfold finishL at h
  split at h
  · cases h
  · cases h
  · rename_i s6 h6
    have st6 : Ascending s6 ∧ (∀ m ∈ s6, Block m) ∧ (F = .inet6 → CoversF F s6 x) := by
      split at h6
      · obtain ⟨a1, a2, -, a4⟩ := one .inet6 [] s6 .nil (by simp) h6
        exact ⟨a1, a2, fun hF => a4 hF.symm⟩
      · rename_i hn
        cases h6
        refine ⟨.nil, by simp, ?_⟩
        rintro rfl
        exact absurd (by rw [show g6 = gapOf g6 g4 .inet6 from rfl, hnz]; rfl) hn
    split at h
    · obtain ⟨a1, a2, a3, a4⟩ := one .inet s6 s st6.1 st6.2.1 h
      cases F with
      | inet => exact a4 rfl
      | inet6 => exact a3 _ _ (st6.2.2 rfl)
    · rename_i hn
      cases h
      cases F with
      | inet => exact absurd (by rw [show g4 = gapOf g6 g4 .inet from rfl, hnz]; rfl) hn
      | inet6 => exact st6.2.2 rfl

/-- If the enumeration succeeds, every address of a family outside of the networks of the family is covered. -/
theorem bog_complete {C : List Network} (hC : BSet C) (hgap : ∀ n ∈ C, value n.last ≠ 0xfffeffffffff) {F : Family} {x : Addr} (hx : addrFamily x = F)
    (hnc : ¬ CoversF F C x) (hany : ∃ n ∈ C, n.family = F ∧ minF F < value n.last) :
    ∀ (l D : List Network) (g6 g4 : Addr) (R : List Network), C = D ++ l → (∀ G, FInv G (gapOf g6 g4 G) D) → bogL l g6 g4 = .ok (R, true) →
      value (gapOf g6 g4 F) ≤ value x → CoversF F R x := by
  intro l
  induction l with
  | nil =>
    intro D g6 g4 R hs hi hb hge
    rw [List.append_nil] at hs
    subst hs
    rw [bogL] at hb
    cases hl : finishL g6 g4 with
    | error e => rw [hl] at hb; cases hb
    | ok o =>
      rw [hl] at hb
      cases o with
      | none => cases hb
      | some s =>
        cases hb
        exact finish_covers hl (hi .inet6).fam (hi .inet).fam ((hi F).any hany) hx hge
  | cons n l ih =>
    intro D g6 g4 R hs hi hb hge
    have hs' : C = (D ++ [n]) ++ l := by rw [hs]; simp
    have hnC : n ∈ C := by rw [hs]; simp
    rcases Nat.lt_or_ge (value (gapOf g6 g4 n.family)) (value n.last) with h | h
    · rcases bogL_cons h hb with ⟨-, -, h⟩ | ⟨s, R', h1, h2, rfl⟩
      · cases h
      · obtain ⟨h3, h4, h5⟩ := step_ok hC hs (hi n.family) h h1
        have hmax : value n.last ≠ maxF n.family := by
          intro hm
          have hinc : addrInc n.last = n.last := by
            unfold addrInc
            rw [if_pos]
            rw [allOnes_iff_value, famMax_eq h4]
            exact hm
          have := bog_saturated (F := n.family) l _ _ R' true (fun m hm => hC.blk m (by rw [hs]; simp [hm])) (fun m hm' hf => ?_)
            (by rw [gapOf_if, if_pos rfl, hinc]; exact h4) (by rw [gapOf_if, if_pos rfl, hinc]; exact hm) h2
          · cases this
          · rw [← hf]
            have hbm := hC.blk m (by rw [hs]; simp [hm'])
            have hcl : Contains m m.last := ⟨by have := hbm.last_eq; omega, Nat.le_refl _⟩
            cases e : m.family with
            | inet => exact (fam_range (last_fam4 hbm e hcl)).2
            | inet6 =>
              have := value_lt m.last
              show value m.last ≤ 2 ^ 128 - 1
              omega
        have hi' : ∀ G, FInv G (gapOf (if n.family = Family.inet6 then addrInc n.last else g6) (if n.family = Family.inet then addrInc n.last else g4) G) (D ++ [n]) := by
          intro G
          rw [gapOf_if]
          by_cases hG : G = n.family
          · rw [if_pos hG]
            subst hG
            exact FInv.next rfl h4 hmax (hgap n hnC)
          · rw [if_neg hG]
            exact (hi G).skip n (fun h => absurd h.symm hG)
        rw [coversF_append]
        have hrest := ih (D ++ [n]) _ _ R' hs' hi' h2
        rw [gapOf_if] at hrest
        by_cases hF : F = n.family
        · rw [if_pos hF] at hrest
          subst hF
          obtain ⟨-, hv⟩ := inc_fam h4 hmax (hgap n hnC)
          rw [hv] at hrest
          have hout : ¬ Contains n x := fun hc => hnc ⟨n, hnC, rfl, hc⟩
          unfold Contains at hout
          rcases Nat.lt_or_ge (value n.last) (value x) with hgt | hle
          · exact .inr (hrest hgt)
          · left
            rcases h5 with ⟨h5, -⟩ | ⟨h5, h6, h7⟩
            · omega
            · obtain ⟨l', S, k1, -, -, k4, k5, -⟩ := pushGap_ok ((hi n.family).fam.trans h5.symm) h6 (list := []) .nil (by simp)
              rw [k1] at h1
              cases h1
              exact (k4 _ x).mpr (.inr ⟨(hi n.family).fam, k5 x hge (by omega)⟩)
        · rw [if_neg hF] at hrest
          exact .inr (hrest hge)
    · rw [bogL_cons_skip h] at hb
      refine ih (D ++ [n]) g6 g4 R hs' (fun G => (hi G).skip n ?_) hb hge
      rintro rfl
      exact h

end Loc
