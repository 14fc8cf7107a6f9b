import Verif.Lemmas.Range
import Verif.Lemmas.Whois
import Verif.Lemmas.Summarize
/-
Lemmas about ranges of addresses: the networks that a range is cut into.
-/
namespace Loc
open Spec Props

theorem addrToNat_eq (a : Addr) : addrToNat a = value a := rfl

theorem oct_addrOfNat (x i : Nat) (hi : i < 16) : oct (addrOfNat x) i = BitVec.ofNat 8 (x / 256 ^ (15 - i)) := by
  unfold oct addrOfNat
  simp [hi]

theorem valUpto_addrOfNat (x : Nat) (hx : x < 256 ^ 16) : ∀ k, k ≤ 16 → valUpto (addrOfNat x) k = x / 256 ^ (16 - k) := by
  intro k
  induction k with
  | zero =>
    intro _
    show 0 = x / 256 ^ 16
    rw [Nat.div_eq_of_lt hx]
  | succ k ih =>
    intro hk
    show valUpto (addrOfNat x) k * 256 + (oct (addrOfNat x) k).toNat = _
    rw [ih (by omega), oct_addrOfNat _ _ (by omega), BitVec.toNat_ofNat]
    have e : 16 - k = (15 - k) + 1 := by omega
    have e' : 16 - (k + 1) = 15 - k := by omega
    rw [e, e', Nat.pow_succ, ← Nat.div_div_eq_div_mul]
    have := Nat.div_add_mod (x / 256 ^ (15 - k)) 256
    omega

theorem value_addrOfNat {x : Nat} (hx : x < 2 ^ 128) : value (addrOfNat x) = x := by
  rw [value_eq, valUpto_addrOfNat x (by omega) 16 (Nat.le_refl _)]
  simp

theorem bare_block {n : Network} (h : BareNetwork n) : Block n := by
  obtain ⟨a, p, e⟩ := h
  exact (new_canonical _ _ _ e).1

/-- Networks without properties are determined by the first address and the prefix length. -/
theorem bare_unique {m n : Network} (hm : BareNetwork m) (hn : BareNetwork n) (h : SameBlock m n) : m = n := by
  have bm := bare_block hm
  have bn := bare_block hn
  obtain ⟨h1, hp⟩ := h
  have e1 : m.first = n.first := value_inj h1
  have e2 : m.last = n.last := value_inj (by rw [bm.last_eq, bn.last_eq, h1, hp])
  have e3 : m.family = n.family := by
    have f1 := bm.fam
    have f2 := bn.fam
    rw [e1] at f1
    cases g1 : m.family <;> cases g2 : n.family <;> simp_all
  obtain ⟨_, _, x1⟩ := hm
  obtain ⟨_, _, x2⟩ := hn
  have c1 := newNetwork_clear x1
  have c2 := newNetwork_clear x2
  obtain ⟨mf, m1, m2, mp, mc0, mc1, ma, mfl⟩ := m
  obtain ⟨nf, n1, n2, np, nc0, nc1, na, nfl⟩ := n
  simp only at *
  obtain ⟨rfl, rfl, rfl, rfl⟩ := c1
  obtain ⟨rfl, rfl, rfl, rfl⟩ := c2
  subst e1 e2 e3 hp
  rfl

/-- The network at an aligned address -/
theorem new_at {x k : Nat} (hx : x < 2 ^ 128) (hd : 2 ^ k ∣ x) {w : Nat} (hw : w = width (addrOfNat x)) (hk : k ≤ w) :
    ∃ n, newNetwork (addrOfNat x) (w - k) = .ok n ∧ value n.first = x ∧ n.pfx = 128 - k := by
  obtain ⟨n, hn⟩ := (new_accepts (addrOfNat x) (w - k)).mpr (by omega)
  obtain ⟨hb, hf, h1, h2, h3, -, h5, -⟩ := new_canonical _ _ _ hn
  have hv := value_addrOfNat hx
  have hpfx : n.pfx = 128 - k := by
    rw [h2]
    unfold familyStart
    unfold width at hw
    split at hw <;> simp_all <;> omega
  have hk128 : k ≤ 128 := by
    unfold width at hw
    split at hw <;> omega
  refine ⟨n, hn, ?_, hpfx⟩
  have ha := hb.aligned
  unfold AgreeOn at h3
  have e : 128 - n.pfx = k := by omega
  rw [e] at h3 ha
  rw [hv] at h3
  have d1 := Nat.div_add_mod (value n.first) (2 ^ k)
  have d2 := Nat.div_add_mod x (2 ^ k)
  have d3 := Nat.mod_eq_zero_of_dvd hd
  rw [ha] at d1
  rw [d3] at d2
  rw [h3] at d2
  omega

theorem v4_range {a : Addr} : IsV4 a ↔ 0xffff * 2 ^ 32 ≤ value a ∧ value a < 0x10000 * 2 ^ 32 := by
  unfold IsV4
  omega

/-- The numbers of a range: base, width of the addresses and the ends relative to the base -/
structure RangeNumbers (a b : Addr) (base bits lo hi : Nat) : Prop where
  family : (base = 0xffff * 2 ^ 32 ∧ bits = 32 ∧ IsV4 a ∧ IsV4 b) ∨ (base = 0 ∧ bits = 128 ∧ ∀ x, value a ≤ value x → value x ≤ value b → ¬ IsV4 x)
  lo : base + lo = value a
  hi : base + hi = value b

/-- Bare networks in the range are the blocks in the range of numbers. -/
theorem range_iff {a b : Addr} {base bits lo hi : Nat} (h : RangeNumbers a b base bits lo hi) {n : Network} (hn : BareNetwork n) :
    InRangeOf a b n ↔ ∃ v, value n.first = base + v ∧ InRange bits lo hi v (128 - n.pfx) := by
  have hb := bare_block hn
  have hl := hb.last_eq
  have hpos := Nat.two_pow_pos (128 - n.pfx)
  have e1 := h.lo
  have e2 := h.hi
  have ha := Nat.dvd_of_mod_eq_zero hb.aligned
  have hle := hb.le
  constructor
  · rintro ⟨h1, h2⟩
    refine ⟨value n.first - base, by omega, ?_⟩
    rcases h.family with ⟨rfl, rfl, va, vb⟩ | ⟨rfl, rfl, -⟩
    · rw [v4_range] at va vb
      have hv : IsV4 n.first := v4_range.mpr (by omega)
      have hp := block_v4_pfx hb (hb.fam.mpr hv)
      refine ⟨by omega, ?_, by omega, by omega⟩
      have hd : 2 ^ (128 - n.pfx) ∣ 0xffff * 2 ^ 32 := Nat.dvd_trans (Nat.pow_dvd_pow 2 (by omega)) (Nat.dvd_mul_left _ _)
      exact Nat.dvd_sub ha hd
    · exact ⟨by omega, by simpa using ha, by omega, by omega⟩
  · rintro ⟨v, h1, g⟩
    have := g.lower
    have := g.upper
    exact ⟨by omega, by omega⟩

/-- Every block in the range of numbers is a network. -/
theorem range_network {a b : Addr} {base bits lo hi : Nat} (h : RangeNumbers a b base bits lo hi) {v k : Nat} (g : InRange bits lo hi v k) :
    ∃ n, newNetwork (addrOfNat (base + v)) (bits - k) = .ok n ∧ value n.first = base + v ∧ n.pfx = 128 - k := by
  have := g.lower
  have := g.upper
  have := g.le
  have hpos := Nat.two_pow_pos k
  have e1 := h.lo
  have e2 := h.hi
  have hb := value_lt b
  have hx : base + v < 2 ^ 128 := by omega
  have hv := value_addrOfNat hx
  rcases h.family with ⟨rfl, rfl, va, vb⟩ | ⟨rfl, rfl, hno⟩
  · refine new_at hx ((Nat.dvd_add_iff_right ?_).mp g.aligned) ?_ g.le
    · exact Nat.dvd_trans (Nat.pow_dvd_pow 2 g.le) (Nat.dvd_mul_left _ _)
    · rw [v4_range] at va vb
      unfold width
      rw [if_pos (v4_range.mpr (by rw [hv]; omega))]
  · refine new_at hx (by simpa using g.aligned) ?_ g.le
    unfold width
    rw [if_neg (hno _ (by rw [hv]; omega) (by rw [hv]; omega))]

/-- The largest networks in a range are the largest blocks of numbers in it. -/
theorem largest_iff {a b : Addr} {base bits lo hi : Nat} (h : RangeNumbers a b base bits lo hi) {n : Network} :
    LargestIn a b n ↔ ∃ v k, newNetwork (addrOfNat (base + v)) (bits - k) = .ok n ∧ MaxInRange bits lo hi v k := by
  have blockLast : ∀ {m : Network}, BareNetwork m → value m.last + 1 = value m.first + 2 ^ (128 - m.pfx) := by
    intro m hm
    have := (bare_block hm).last_eq
    have := Nat.two_pow_pos (128 - m.pfx)
    omega
  constructor
  · rintro ⟨hn, hr, hmax⟩
    have hb := bare_block hn
    have hle := hb.le
    obtain ⟨v, hv, g⟩ := (range_iff h hn).mp hr
    obtain ⟨n', e1, e2, e3⟩ := range_network h g
    have hnn : n' = n := bare_unique ⟨_, _, e1⟩ hn ⟨by rw [e2, hv], by rw [e3]; omega⟩
    subst hnn
    refine ⟨v, 128 - n'.pfx, e1, g, fun v' k' g' hle' hge' => ?_⟩
    obtain ⟨m, f1, f2, f3⟩ := range_network h g'
    have hm : BareNetwork m := ⟨_, _, f1⟩
    have hk' : k' ≤ 128 := by
      have := g'.le
      rcases h.family with ⟨-, e, -⟩ | ⟨-, e, -⟩ <;> omega
    have hlm := blockLast hm
    have hln := blockLast hn
    have e : 128 - m.pfx = k' := by omega
    rw [e] at hlm
    have hin : InRangeOf a b m := (range_iff h hm).mpr ⟨v', f2, by rw [e]; exact g'⟩
    have hmn := hmax m hm hin (fun x hx => by unfold Contains at *; omega)
    rw [hmn] at e
    omega
  · rintro ⟨v, k, hn, g, hmax⟩
    obtain ⟨n', e1, e2, e3⟩ := range_network h g
    rw [hn] at e1
    cases e1
    have hbn : BareNetwork n := ⟨_, _, hn⟩
    have hb := bare_block hbn
    have hk : k ≤ 128 := by
      have := g.le
      rcases h.family with ⟨-, e, -⟩ | ⟨-, e, -⟩ <;> omega
    have e : 128 - n.pfx = k := by omega
    refine ⟨hbn, (range_iff h hbn).mpr ⟨v, e2, by rw [e]; exact g⟩, fun m hm hin hsub => ?_⟩
    have bm := bare_block hm
    obtain ⟨v', hv', g'⟩ := (range_iff h hm).mp hin
    have h1 := hsub _ (first_contains hb)
    have h2 := hsub _ (last_contains hb)
    unfold Contains at h1 h2
    have hlm := blockLast hm
    have hln := blockLast hbn
    rw [e] at hln
    have hk' := hmax v' (128 - m.pfx) g' (by omega) (by omega)
    have hpow := Nat.pow_le_pow_right (n := 2) (by decide) hk'
    have heq : 128 - m.pfx = k := by
      rcases Nat.lt_or_ge (128 - m.pfx) k with hlt | hge
      · have := Nat.pow_lt_pow_right (a := 2) (by decide) hlt
        omega
      · omega
    rw [heq] at hlm
    exact bare_unique hm hbn ⟨by omega, by have := bm.le; have := hb.le; omega⟩

theorem pyNetworks_ret (base : Nat) : ∀ (l : List (Nat × Nat)), (∀ x ∈ l, ∃ n, newNetwork (addrOfNat (base + x.1)) x.2 = .ok n) →
    ∃ ns, pyNetworks base l = .ret ns ∧ List.Forall₂ (fun x n => newNetwork (addrOfNat (base + x.1)) x.2 = .ok n) l ns := by
  intro l
  induction l with
  | nil => exact fun _ => ⟨[], rfl, .nil⟩
  | cons x l ih =>
    intro h
    obtain ⟨n, hn⟩ := h x List.mem_cons_self
    obtain ⟨ns, h1, h2⟩ := ih fun y hy => h y (List.mem_cons_of_mem _ hy)
    refine ⟨n :: ns, ?_, .cons hn h2⟩
    obtain ⟨v, p⟩ := x
    show (match (newNetwork (addrOfNat (base + v)) p).toOption with | none => _ | some n => _) = _
    rw [show newNetwork (addrOfNat (base + v)) p = .ok n from hn]
    simp only [Except.toOption, h1]

theorem forall2_mem_right {α β : Type} {R : α → β → Prop} {l : List α} {ns : List β} (h : List.Forall₂ R l ns) {n : β} (hn : n ∈ ns) : ∃ x ∈ l, R x n := by
  induction h with
  | nil => cases hn
  | cons hr _ ih =>
    rcases List.mem_cons.mp hn with rfl | hn
    · exact ⟨_, List.mem_cons_self, hr⟩
    · obtain ⟨x, hx, hxr⟩ := ih hn
      exact ⟨x, List.mem_cons_of_mem _ hx, hxr⟩

theorem forall2_mem_left {α β : Type} {R : α → β → Prop} {l : List α} {ns : List β} (h : List.Forall₂ R l ns) {x : α} (hx : x ∈ l) : ∃ n ∈ ns, R x n := by
  induction h with
  | nil => cases hx
  | cons hr _ ih =>
    rcases List.mem_cons.mp hx with rfl | hx
    · exact ⟨_, List.mem_cons_self, hr⟩
    · obtain ⟨n, hn, hxr⟩ := ih hx
      exact ⟨n, List.mem_cons_of_mem _ hn, hxr⟩

theorem forall2_pairwise {α β : Type} {R : α → β → Prop} {P : α → α → Prop} {Q : β → β → Prop} {l : List α} {ns : List β} (h : List.Forall₂ R l ns)
    (hp : l.Pairwise P) (hq : ∀ x ∈ l, ∀ y ∈ l, ∀ m n, P x y → R x m → R y n → Q m n) : ns.Pairwise Q := by
  induction h with
  | nil => exact .nil
  | cons hr ht ih =>
    rw [List.pairwise_cons] at hp ⊢
    refine ⟨fun n hn => ?_, ih hp.2 fun x hx y hy => hq x (List.mem_cons_of_mem _ hx) y (List.mem_cons_of_mem _ hy)⟩
    obtain ⟨y, hy, hyn⟩ := forall2_mem_right ht hn
    exact hq _ List.mem_cons_self y (List.mem_cons_of_mem _ hy) _ _ (hp.1 y hy) hr hyn

/-- What is made of a range: the largest networks in it, in ascending order. -/
theorem summarizeNumbers {a b : Addr} {base bits lo hi : Nat} (h : RangeNumbers a b base bits lo hi) :
    ∃ ns, pyNetworks base (pySummarize bits lo hi) = .ret ns ∧ (∀ n, n ∈ ns ↔ LargestIn a b n) ∧
      ns.Pairwise (fun m n => value m.last < value n.first) ∧ ∀ x, value a ≤ value x → value x ≤ value b → ∃ n ∈ ns, Contains n x := by
  have hmem := summarize_max bits hi _ lo (Nat.le_refl _)
  have made : ∀ x ∈ pySummarize bits lo hi, ∃ k n, x.2 = bits - k ∧ k ≤ bits ∧ newNetwork (addrOfNat (base + x.1)) x.2 = .ok n ∧
      value n.first = base + x.1 ∧ n.pfx = 128 - k := by
    intro x hx
    obtain ⟨k, hk, g⟩ := (hmem x.1 x.2).mp hx
    obtain ⟨n, hn, h1, h2⟩ := range_network h g.1
    exact ⟨k, n, hk, g.1.le, by rw [hk]; exact hn, h1, h2⟩
  have hbits : bits ≤ 128 := by rcases h.family with ⟨-, e, -⟩ | ⟨-, e, -⟩ <;> omega
  obtain ⟨ns, h1, h2⟩ := pyNetworks_ret base (pySummarize bits lo hi) fun x hx => by
    obtain ⟨_, n, _, _, hn, _⟩ := made x hx
    exact ⟨n, hn⟩
  have ends : ∀ {x n}, x ∈ pySummarize bits lo hi → newNetwork (addrOfNat (base + x.1)) x.2 = .ok n →
      value n.first = base + x.1 ∧ value n.last + 1 = base + x.1 + 2 ^ (bits - x.2) := by
    intro x n hx hn
    obtain ⟨k, n', hk, hkb, hn', g1, g2⟩ := made x hx
    rw [hn] at hn'
    cases hn'
    have hb := (new_canonical _ _ _ hn).1
    have hl := hb.last_eq
    have e1 : 128 - n.pfx = k := by omega
    have e2 : bits - x.2 = k := by omega
    rw [e1] at hl
    rw [e2]
    have := Nat.two_pow_pos k
    exact ⟨g1, by omega⟩
  refine ⟨ns, h1, fun n => ?_, ?_, ?_⟩
  · rw [largest_iff h]
    constructor
    · intro hn
      obtain ⟨x, hx, hxn⟩ := forall2_mem_right h2 hn
      obtain ⟨k, hk, g⟩ := (hmem x.1 x.2).mp hx
      exact ⟨x.1, k, by rw [← hk]; exact hxn, g⟩
    · rintro ⟨v, k, hn, g⟩
      obtain ⟨n', hn', hxn⟩ := forall2_mem_left h2 ((hmem v (bits - k)).mpr ⟨k, rfl, g⟩)
      simp only at hxn
      rw [hn] at hxn
      cases hxn
      exact hn'
  · refine forall2_pairwise h2 (summarize_sorted bits hi _ lo (Nat.le_refl _)) fun x hx y hy m n hxy hm hn => ?_
    have e1 := (ends hx hm).2
    have e2 := (ends hy hn).1
    omega
  · intro x hx1 hx2
    have e1 := h.lo
    have e2 := h.hi
    obtain ⟨v, k, g1, g2, g3, g4⟩ := summarize_covers bits hi _ lo (Nat.le_refl _) (value x - base) (by omega) (by omega)
    obtain ⟨n, hn, hxn⟩ := forall2_mem_left h2 g1
    obtain ⟨f1, f2⟩ := ends g1 hxn
    simp only at f1 f2
    have e : bits - (bits - k) = k := by omega
    rw [e] at f2
    exact ⟨n, hn, by unfold Contains; omega⟩

/-- `summarize_address_range` gives the largest networks in the range. -/
theorem summarizeRange_ret {a b : Addr} (hf : OneFamily a b) (hle : value a ≤ value b) :
    ∃ ns, summarizeRange a b = .ret ns ∧ (∀ n, n ∈ ns ↔ LargestIn a b n) ∧
      ns.Pairwise (fun m n => value m.last < value n.first) ∧ ∀ x, value a ≤ value x → value x ≤ value b → ∃ n ∈ ns, Contains n x := by
  have hfam : IsV4 a ↔ IsV4 b := by
    rcases hf with h | h
    · exact ⟨fun _ => h.2, fun _ => h.1⟩
    · exact ⟨fun h' => absurd h' (h a (Nat.le_refl _) hle), fun h' => absurd h' (h b hle (Nat.le_refl _))⟩
  unfold summarizeRange
  rw [if_neg (not_not_intro (family_iff.mpr hfam)), if_neg (by rw [addrToNat_eq, addrToNat_eq]; omega)]
  by_cases hv : IsV4 a
  · have e : addrFamily a = .inet := by
      unfold addrFamily
      rw [if_pos ((isV4Mapped_iff a).mpr hv)]
    simp only [e, addrToNat_eq]
    have va := v4_range.mp hv
    have vb := v4_range.mp (hfam.mp hv)
    exact summarizeNumbers ⟨.inl ⟨rfl, rfl, hv, hfam.mp hv⟩, by omega, by omega⟩
  · have e : addrFamily a = .inet6 := by
      unfold addrFamily
      rw [if_neg (fun h => hv ((isV4Mapped_iff a).mp h))]
    simp only [e, addrToNat_eq]
    refine summarizeNumbers ⟨.inr ⟨rfl, rfl, ?_⟩, by omega, by omega⟩
    rcases hf with h | h
    · exact absurd h.1 hv
    · exact h

/-- … and raises an exception for what is not a range. -/
theorem summarizeRange_exc {a b : Addr} (h : ¬ (IsV4 a ↔ IsV4 b) ∨ value b < value a) : ∃ x, summarizeRange a b = .exc x := by
  unfold summarizeRange
  by_cases hf : addrFamily a = addrFamily b
  · rw [if_neg (not_not_intro hf)]
    rcases h with h | h
    · exact absurd (family_iff.mp hf) h
    · rw [if_pos (show addrToNat b < addrToNat a from h)]
      exact ⟨_, rfl⟩
  · rw [if_pos hf]
    exact ⟨_, rfl⟩

end Loc
