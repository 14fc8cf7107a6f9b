import Verif.Lemmas.BogonGaps
/-
When the bogons are exactly the gaps.
-/
namespace Loc
open Spec

theorem covers_fam {C : List Network} (hC : BSet C) (hok : BogonsOk C) {n : Network} (hn : n ∈ C) {x : Addr} (hx : Contains n x) :
    addrFamily x = n.family := by
  have hb := hC.blk n hn
  cases e : n.family with
  | inet => exact last_fam4 hb e hx
  | inet6 =>
    refine noV4 hb e (hC.around n hn) ?_ hx
    have h1 := (hok.inner n hn).1
    have h2 := first_fam hb
    rw [e] at h2
    rwa [show familyFirst n.first = famMin n.first from rfl, famMin_eq h2] at h1

theorem contains_last {n : Network} (h : Block n) : Contains n n.last := ⟨by have := h.last_eq; omega, Nat.le_refl _⟩

theorem contains_first {n : Network} (h : Block n) : Contains n n.first := ⟨Nat.le_refl _, by have := h.last_eq; omega⟩

/-- The range between the start of the gap and an address before all networks to come is a maximal gap. -/
theorem maxGap {C D l : List Network} (hC : BSet C) (hok : BogonsOk C) (hs : C = D ++ l) {G : Family} {g h : Addr} (hi : FInv G g D)
    (he : ∀ d ∈ D, d.family = G → value d.last < value g) (hh : addrFamily h = G) (hle : value g ≤ value h)
    (hl : ∀ m ∈ l, m.family = G → value h < value m.first)
    (hstop : value h = maxF G ∨ ∃ m ∈ l, m.family = G ∧ value h + 1 = value m.first) : MaximalGap C g h := by
  have hfam : ∀ {y : Addr}, addrFamily y = G → (IsV4 y ↔ IsV4 g) := fun hy => family_iff.mp (hy.trans hi.fam.symm)
  refine ⟨(hfam hh).symm, hle, ?_, ?_, ?_⟩
  · rintro x hx h1 h2 ⟨n, hn, hc⟩
    have hxG : addrFamily x = G := (family_iff.mpr hx).trans hi.fam
    have hnG : n.family = G := (covers_fam hC hok hn hc).symm.trans hxG
    unfold Contains at hc
    rw [hs, List.mem_append] at hn
    rcases hn with hn | hn
    · have := he n hn hnG
      omega
    · have := hl n hn hnG
      omega
  · rcases hi.start with h | ⟨d, hd, h1, h2, h3⟩
    · left
      rw [show familyFirst g = famMin g from rfl, famMin_eq hi.fam, h]
    · have hdC : d ∈ C := by rw [hs]; exact List.mem_append_left _ hd
      exact .inr ⟨d.last, hfam h2, ⟨d, hdC, contains_last (hC.blk d hdC)⟩, h3⟩
  · rcases hstop with h | ⟨m, hm, h1, h2⟩
    · left
      rw [show familyLast _ = famMax _ from rfl, famMax_eq hh, h]
    · have hmC : m ∈ C := by rw [hs]; exact List.mem_append_right _ hm
      refine .inr ⟨m.first, ?_, ⟨m, hmC, contains_first (hC.blk m hmC)⟩, h2⟩
      exact family_iff.mp (((first_fam (hC.blk m hmC)).trans h1).trans hh.symm)

theorem finish_one {C : List Network} (hC : BSet C) (hok : BogonsOk C) {G : Family} {g : Addr} (hi : FInv G g C)
    (he : ∀ d ∈ C, d.family = G → value d.last < value g) {st : NetList} (ha : Ascending st) (hb : ∀ m ∈ st, Block m) :
    ∃ s', (if !allZeroes g then pushGap g (addrResetLast G) st else .ok (some st)) = .ok (some s') ∧ Ascending s' ∧ (∀ m ∈ s', Block m) ∧
      ((∀ lo hi, MaximalGap C lo hi → ExactRange lo hi) → ∀ F x, CoversF F s' x → CoversF F st x ∨ (F = G ∧ value g ≠ minF G ∧ value g ≤ value x)) := by
  cases hz : allZeroes g with
  | true => exact ⟨st, by simp, ha, hb, fun _ F x h => .inl h⟩
  | false =>
    have hz' : value g ≠ minF G := by
      rw [← famMin_eq hi.fam]
      intro h
      rw [← allZeroes_iff_value, hz] at h
      cases h
    have hm : MaximalGap C g (addrResetLast G) := by
      refine maxGap hC hok (D := C) (l := []) (by simp) hi he (resetLast_fam G).1 ?_ (by simp) (.inl (resetLast_fam G).2)
      rw [(resetLast_fam G).2]
      exact (fam_range hi.fam).2
    have hlt : value g < value (addrResetLast G) := by
      have h1 := hok.wide _ _ hm
      have h2 := hm.le
      omega
    obtain ⟨l', S, k1, k2, k3, k4, -, k6⟩ := pushGap_ok (hi.fam.trans (resetLast_fam G).1.symm) hlt ha hb
    refine ⟨l', by simpa using k1, k2, k3, fun hex F x hx => ?_⟩
    refine ((k4 F x).mp hx).imp id ?_
    rintro ⟨h1, h2⟩
    exact ⟨h1.symm.trans hi.fam, hz', (k6 (hex _ _ hm) x h2).1⟩

theorem bog_exact {C : List Network} (hC : BSet C) (hok : BogonsOk C) :
    ∀ (l D : List Network) (g6 g4 : Addr), C = D ++ l → (∀ G, FInv G (gapOf g6 g4 G) D) →
      (∀ G, ∀ d ∈ D, d.family = G → value d.last < value (gapOf g6 g4 G)) →
      ∃ R, bogL l g6 g4 = .ok (R, true) ∧ (∀ n ∈ R, Block n) ∧ ((∀ lo hi, MaximalGap C lo hi → ExactRange lo hi) →
        ∀ F x, addrFamily x = F → CoversF F R x → value (gapOf g6 g4 F) ≤ value x ∧ ¬ Covers C x ∧ ∃ n ∈ C, n.family = F) := by
  intro l
  induction l with
  | nil =>
    intro D g6 g4 hs hi he
    rw [List.append_nil] at hs
    subst hs
    obtain ⟨s6, a1, a2, a3, a4⟩ := finish_one hC hok (hi .inet6) (he .inet6) (st := []) .nil (by simp)
    obtain ⟨s4, b1, b2, b3, b4⟩ := finish_one hC hok (hi .inet) (he .inet) a2 a3
    have hfin : finishL g6 g4 = .ok (some s4) := by
      unfold finishL
      rw [show (if (!allZeroes g6) = true then pushGap g6 (addrResetLast Family.inet6) [] else Except.ok (some [])) = .ok (some s6) from a1]
      exact b1
    refine ⟨s4, by rw [bogL, hfin], b3, fun hex F x hx hc => ?_⟩
    have key : value (gapOf g6 g4 F) ≠ minF F ∧ value (gapOf g6 g4 F) ≤ value x := by
      rcases b4 hex F x hc with h | ⟨rfl, h1, h2⟩
      · rcases a4 hex F x h with ⟨n, hn, -⟩ | ⟨rfl, h1, h2⟩
        · cases hn
        · exact ⟨h1, h2⟩
      · exact ⟨h1, h2⟩
    refine ⟨key.2, ?_, ?_⟩
    · rintro ⟨n, hn, hcn⟩
      have h1 := he F n hn ((covers_fam hC hok hn hcn).symm.trans hx)
      unfold Contains at hcn
      omega
    · rcases (hi F).start with h | ⟨d, hd, h1, -⟩
      · exact absurd h key.1
      · exact ⟨d, hd, h1⟩
  | cons n l ih =>
    intro D g6 g4 hs hi he
    have hs' : C = (D ++ [n]) ++ l := by rw [hs]; simp
    have hnC : n ∈ C := by rw [hs]; simp
    have hbn := hC.blk n hnC
    have hff := first_fam hbn
    have hinner := hok.inner n hnC
    have haway := hok.away n hnC
    have hlf : addrFamily n.last = n.family := covers_fam hC hok hnC (contains_last hbn)
    rw [show familyFirst n.first = famMin n.first from rfl, famMin_eq hff, show familyLast n.last = famMax n.last from rfl, famMax_eq hlf] at hinner
    have hafter : ∀ m ∈ l, value n.first ≤ value m.first := by
      intro m hm
      have := hC.asc
      rw [hs] at this
      have := (List.pairwise_cons.mp (List.pairwise_append.mp this).2.1).1 m hm
      unfold Before at this
      omega
    rcases Nat.lt_or_ge (value (gapOf g6 g4 n.family)) (value n.last) with h | h
    · have hle := gap_le hC hs (hi n.family) h
      have hdec : value (addrDec n.first) = value n.first - 1 := by
        rw [value_addrDec _ haway.2.1, famMin_eq hff, if_neg hinner.1]
      have hpos : 0 < value n.first := by
        have := (fam_range hff).1
        rcases Nat.eq_zero_or_pos (value n.first) with h0 | h0
        · exfalso
          apply hinner.1
          omega
        · exact h0
      have hdf : addrFamily (addrDec n.first) = n.family := by
        have hr := fam_range hff
        cases e : n.family with
        | inet =>
          rw [e] at hff hr hinner
          have h4 := addrFamily_inet.mp hff
          rw [addrFamily_inet]
          unfold IsV4 at *
          rw [hdec]
          have h5 : value n.first ≠ 0xffff00000000 := hinner.1
          simp only [Nat.reducePow] at *
          omega
        | inet6 =>
          rw [e] at hff
          have h4 := addrFamily_inet6.mp hff
          have h5 := haway.1
          rw [addrFamily_inet6]
          unfold IsV4 at *
          rw [hdec]
          simp only [Nat.reducePow] at *
          omega
      -- the push
      obtain ⟨s, p1, p2, p3⟩ : ∃ s, pushGap (gapOf g6 g4 n.family) (addrDec n.first) [] = .ok (some s) ∧ (∀ m ∈ s, Block m) ∧
          ((∀ lo hi, MaximalGap C lo hi → ExactRange lo hi) → ∀ F x, CoversF F s x → F = n.family ∧ value (gapOf g6 g4 n.family) ≤ value x ∧ value x < value n.first) := by
        rcases Nat.lt_or_ge (value (addrDec n.first)) (value (gapOf g6 g4 n.family)) with hlt | hge
        · refine ⟨[], pushGap_empty hlt [], by simp, fun _ F x hx => ?_⟩
          obtain ⟨m, hm, -⟩ := hx
          cases hm
        · have hm : MaximalGap C (gapOf g6 g4 n.family) (addrDec n.first) := by
            refine maxGap hC hok hs (hi n.family) (he n.family) hdf hge ?_ (.inr ⟨n, by simp, rfl, by omega⟩)
            intro m hm _
            rcases List.mem_cons.mp hm with rfl | hm
            · omega
            · have := hafter m hm
              omega
          have hlt : value (gapOf g6 g4 n.family) < value (addrDec n.first) := by
            have := hok.wide _ _ hm
            omega
          obtain ⟨l', S, k1, k2, k3, k4, -, k6⟩ := pushGap_ok ((hi n.family).fam.trans hdf.symm) hlt (list := []) .nil (by simp)
          refine ⟨l', k1, k3, fun hex F x hx => ?_⟩
          rcases (k4 F x).mp hx with ⟨m, hm, -⟩ | ⟨h1, h2⟩
          · cases hm
          · have := k6 (hex _ _ hm) x h2
            exact ⟨h1.symm.trans (hi n.family).fam, this.1, by omega⟩
      obtain ⟨hif, hiv⟩ := inc_fam hlf hinner.2 haway.2.2
      have hi' : ∀ G, FInv G (gapOf (if n.family = Family.inet6 then addrInc n.last else g6) (if n.family = Family.inet then addrInc n.last else g4) G) (D ++ [n]) := by
        intro G
        rw [gapOf_if]
        by_cases hG : G = n.family
        · rw [if_pos hG]
          subst hG
          exact FInv.next rfl hlf hinner.2 haway.2.2
        · rw [if_neg hG]
          exact (hi G).skip n (fun h => absurd h.symm hG)
      have he' : ∀ G, ∀ d ∈ D ++ [n], d.family = G → value d.last < value (gapOf (if n.family = Family.inet6 then addrInc n.last else g6) (if n.family = Family.inet then addrInc n.last else g4) G) := by
        intro G d hd hdG
        rw [gapOf_if]
        rcases List.mem_append.mp hd with hd | hd
        · by_cases hG : G = n.family
          · rw [if_pos hG, hiv]
            subst hG
            have := he n.family d hd hdG
            omega
          · rw [if_neg hG]
            exact he G d hd hdG
        · rw [List.mem_singleton] at hd
          subst hd
          rw [if_pos hdG.symm, hiv]
          omega
      obtain ⟨R, r1, r2, r3⟩ := ih (D ++ [n]) _ _ hs' hi' he'
      refine ⟨s ++ R, ?_, ?_, fun hex F x hx hc => ?_⟩
      · rw [bogL, if_neg (mt addrCmp_nonneg.mp (by omega)), p1]
        simp only
        rw [r1]
      · intro m hm
        rcases List.mem_append.mp hm with hm | hm
        exacts [p2 m hm, r2 m hm]
      · rcases coversF_append.mp hc with hc | hc
        · obtain ⟨rfl, q1, q2⟩ := p3 hex F x hc
          refine ⟨q1, ?_, n, hnC, rfl⟩
          rintro ⟨m, hm, hcm⟩
          have hmf := (covers_fam hC hok hm hcm).symm.trans hx
          unfold Contains at hcm
          rw [hs, List.mem_append, List.mem_cons] at hm
          rcases hm with hm | rfl | hm
          · have := he n.family m hm hmf
            omega
          · omega
          · have := hafter m hm
            omega
        · obtain ⟨q1, q2, q3⟩ := r3 hex F x hx hc
          refine ⟨?_, q2, q3⟩
          rw [gapOf_if] at q1
          by_cases hF : F = n.family
          · rw [if_pos hF, hiv] at q1
            subst hF
            omega
          · rw [if_neg hF] at q1
            exact q1
    · -- skipped: inside a former network
      have hlast : value n.last < value (gapOf g6 g4 n.family) := by
        rcases Nat.lt_or_ge (value n.last) (value (gapOf g6 g4 n.family)) with h1 | h1
        · exact h1
        · exfalso
          have hge : value (gapOf g6 g4 n.family) = value n.last := by omega
          have hfl := hbn.last_eq
          rcases (hi n.family).start with hm | ⟨d, hd, d1, d2, d3⟩
          · have := (fam_range hff).1
            apply hinner.1
            omega
          · have hdC : d ∈ C := by rw [hs]; exact List.mem_append_left _ hd
            have hbd := hC.blk d hdC
            have hbef : ∀ m ∈ D, Before m n := by
              intro m hm
              have := hC.asc
              rw [hs] at this
              exact (List.pairwise_append.mp this).2.2 m hm n (by simp)
            have hnin : ¬ Contains d n.first := by
              intro hc
              rcases Nat.le_total d.pfx n.pfx with hp | hp
              · have h4 := share_path hbd hbn hc (contains_first hbn) hp
                have := (inside_range hbn ((inside_iff_path hbn hbd).mpr h4)).2
                omega
              · exact not_before_of_path hbd hbn (share_path hbn hbd (contains_first hbn) hc hp) (hbef d hd)
            have hd1 : value d.first ≤ value n.first := by
              have := hbef d hd
              unfold Before at this
              omega
            unfold Contains at hnin
            have hhost : value n.first = value n.last := by omega
            have hh : IsHost n := by
              unfold IsHost
              have hle := hbn.le
              by_contra hne
              have h2 : 2 ^ 1 ≤ 2 ^ (128 - n.pfx) := Nat.pow_le_pow_right (by decide) (by omega)
              omega
            rcases hok.host n hnC hh with ⟨m, hm, hin, hns⟩ | hno
            · have hbm := hC.blk m hm
              have hr := inside_range hbn hin
              have hmf : m.family = n.family := (covers_fam hC hok hm (hin _ (contains_first hbn))).symm.trans hff
              rw [hs, List.mem_append, List.mem_cons] at hm
              rcases hm with hm | rfl | hm
              · have := he n.family m hm hmf
                omega
              · exact hns ⟨rfl, rfl⟩
              · have := hC.asc
                rw [hs] at this
                have hb2 := (List.pairwise_cons.mp (List.pairwise_append.mp this).2.1).1 m hm
                exact not_before_of_path hbn hbm ((inside_iff_path hbn hbm).mp hin) hb2
            · exact hno d.last (by omega) ⟨d, hdC, contains_last hbd⟩
      obtain ⟨R, r1, r2⟩ := ih (D ++ [n]) g6 g4 hs' (fun G => (hi G).skip n (by rintro rfl; exact h)) (by
        intro G d hd hdG
        rcases List.mem_append.mp hd with hd | hd
        · exact he G d hd hdG
        · rw [List.mem_singleton] at hd
          subst hd
          subst hdG
          exact hlast)
      exact ⟨R, by rw [bogL_cons_skip h]; exact r1, r2⟩

/-! ### No step crashes -/

theorem pushGap_total (g h : Addr) {list : NetList} (ha : Ascending list) (hl : ∀ m ∈ list, Block m) :
    pushGap g h list = .ok none ∨ ∃ s, pushGap g h list = .ok (some s) ∧ Ascending s ∧ ∀ m ∈ s, Block m := by
  rcases pushGap_cases g h ha hl with ⟨h1, -⟩ | ⟨-, h1⟩ | ⟨h1, h2, -⟩
  · exact .inl h1
  · exact .inr ⟨list, h1, ha, hl⟩
  · obtain ⟨l', S, k1, k2, k3, -⟩ := pushGap_ok h1 h2 ha hl
    exact .inr ⟨l', k1, k2, k3⟩

theorem bogL_total : ∀ (l : List Network) (g6 g4 : Addr), ∃ R b, bogL l g6 g4 = .ok (R, b) ∧ ∀ n ∈ R, Block n := by
  intro l
  induction l with
  | nil =>
    intro g6 g4
    have step : ∀ (g h : Addr) (st : NetList), Ascending st → (∀ m ∈ st, Block m) →
        (if !allZeroes g then pushGap g h st else .ok (some st)) = .ok none ∨
        ∃ s, (if !allZeroes g then pushGap g h st else .ok (some st)) = .ok (some s) ∧ Ascending s ∧ ∀ m ∈ s, Block m := by
      intro g h st ha hb
      split
      · exact pushGap_total g h ha hb
      · exact .inr ⟨st, rfl, ha, hb⟩
    rcases step g6 (addrResetLast .inet6) [] .nil (by simp) with h1 | ⟨s, h1, h2, h3⟩
    · exact ⟨[], false, by rw [bogL, finishL, h1], by simp⟩
    · rcases step g4 (addrResetLast .inet) s h2 h3 with h4 | ⟨s', h4, h5, h6⟩
      · exact ⟨[], false, by rw [bogL, finishL, h1]; simp only; rw [h4], by simp⟩
      · exact ⟨s', true, by rw [bogL, finishL, h1]; simp only; rw [h4], h6⟩
  | cons n l ih =>
    intro g6 g4
    rw [bogL]
    split
    · exact ih g6 g4
    · rcases pushGap_total (gapOf g6 g4 n.family) (addrDec n.first) (list := []) .nil (by simp) with h1 | ⟨s, h1, -, h3⟩
      · exact ⟨[], false, by rw [h1], by simp⟩
      · obtain ⟨R, b, r1, r2⟩ := ih (if n.family = Family.inet6 then addrInc n.last else g6) (if n.family = Family.inet then addrInc n.last else g4)
        refine ⟨s ++ R, b, by rw [h1]; simp only; rw [r1], ?_⟩
        intro m hm
        rcases List.mem_append.mp hm with hm | hm
        exacts [h3 m hm, r2 m hm]

theorem finv_init (G : Family) : FInv G (gapOf (addrReset .inet6) (addrReset .inet) G) [] := by
  refine ⟨?_, .inl ?_, ?_⟩
  · cases G <;> decide
  · cases G <;> decide
  · rintro ⟨d, hd, -⟩
    cases hd

theorem coversF_iff {l : List Network} (h : ∀ n ∈ l, Block n) (x : Addr) : CoversF (addrFamily x) l x ↔ CoveredInFamily l x := by
  unfold CoversF CoveredInFamily
  refine exists_congr fun n => and_congr_right fun hn => and_congr_left fun _ => ?_
  rw [← first_fam (h n hn)]
  exact family_iff

end Loc
