import Verif.Lemmas.Drain
/-
How much of the stack a search needs, in terms of the networks; what the filters of the enumerator select.
-/
namespace Loc
open Spec

/-- Entries on the stack when the node at a path is searched. -/
def cost : Tree → List Bool → Nat
  | .nil, _ => 0
  | .node _ _ _ _, [] => 1
  | .node _ _ z o, false :: p => 1 + (if o.isNil then 0 else 1) + cost z p
  | .node _ _ _ o, true :: p => 1 + cost o p

theorem le_need {K : Nat} (hK : 0 < K) (t : Tree) : K ≤ need t ↔ ∃ p, ex t p = true ∧ K ≤ cost t p := by
  induction t generalizing K with
  | nil =>
    simp only [need]
    constructor
    · intro h; omega
    · rintro ⟨p, hp, -⟩; simp [ex] at hp
  | node d net z o ihz iho =>
    simp only [need]
    constructor
    · intro h
      by_cases h1 : K = 1
      · exact ⟨[], rfl, by rw [h1]; exact Nat.le_refl 1⟩
      rcases Nat.le_total ((if o.isNil then 0 else 1) + need z) (need o) with hm | hm
      · rw [Nat.max_eq_right hm] at h
        obtain ⟨p, h2, h3⟩ := (iho (K := K - 1) (by omega)).mp (by omega)
        exact ⟨true :: p, h2, by simp only [cost]; omega⟩
      · rw [Nat.max_eq_left hm] at h
        by_cases h0 : K ≤ 1 + (if o.isNil then 0 else 1)
        · cases ho : o.isNil with
          | true => rw [ho] at h0; simp at h0; omega
          | false =>
            refine ⟨[true], ?_, ?_⟩
            · show ex o [] = true
              cases o with
              | nil => cases ho
              | node => rfl
            · rw [ho] at h0
              cases o with
              | nil => cases ho
              | node => simp only [cost]; simp at h0; omega
        · obtain ⟨p, h2, h3⟩ := (ihz (K := K - 1 - (if o.isNil then 0 else 1)) (by omega)).mp (by omega)
          exact ⟨false :: p, h2, by simp only [cost]; omega⟩
    · rintro ⟨p, h1, h2⟩
      cases p with
      | nil => simp only [cost] at h2; omega
      | cons b p =>
        cases b with
        | true =>
          simp only [cost] at h2
          by_cases h0 : K ≤ 1
          · omega
          have := (iho (K := K - 1) (by omega)).mpr ⟨p, h1, by omega⟩
          omega
        | false =>
          simp only [cost] at h2
          by_cases h0 : K ≤ 1 + (if o.isNil then 0 else 1)
          · omega
          have := (ihz (K := K - 1 - (if o.isNil then 0 else 1)) (by omega)).mpr ⟨p, h1, by omega⟩
          omega

theorem cost_mono (t : Tree) : ∀ {p q : List Bool}, p <+: q → ex t q = true → cost t p ≤ cost t q := by
  induction t with
  | nil => intro p q _ h; simp [ex] at h
  | node d net z o ihz iho =>
    intro p q hp hq
    cases p with
    | nil =>
      cases q with
      | nil => exact Nat.le_refl _
      | cons b q => cases b <;> simp only [cost] <;> omega
    | cons b p =>
      cases q with
      | nil => exact absurd hp.length_le (by simp)
      | cons c q =>
        obtain ⟨rfl, hp'⟩ := List.cons_prefix_cons.mp hp
        cases b with
        | true => have := iho hp' (show ex o q = true from hq); simp only [cost]; omega
        | false => have := ihz hp' (show ex z q = true from hq); simp only [cost]; omega

/-- Bits where the path branches off. -/
def forks (t : Tree) (p : List Bool) : List Nat := (List.range p.length).filter fun k => p[k]? == some false && ex t (p.take k ++ [true])

theorem forks_nil (t : Tree) : forks t [] = [] := rfl

theorem forks_cons (d : Bool) (net : Option Network) (z o : Tree) (b : Bool) (p : List Bool) :
    (forks (.node d net z o) (b :: p)).length = (if b = false ∧ o.isNil = false then 1 else 0) + (forks (if b then o else z) p).length := by
  unfold forks
  rw [List.length_cons, List.range_succ_eq_map, List.filter_cons, List.filter_map]
  have h1 : ((fun k => (b :: p)[k]? == some false && ex (.node d net z o) ((b :: p).take k ++ [true])) ∘ Nat.succ) =
      fun k => p[k]? == some false && ex (if b then o else z) (p.take k ++ [true]) := by
    funext k
    simp only [Function.comp, Nat.succ_eq_add_one, List.getElem?_cons_succ, List.take_succ_cons, List.cons_append, ex]
  rw [h1]
  have h2 : ((b :: p)[0]? == some false && ex (.node d net z o) ((b :: p).take 0 ++ [true])) = (decide (b = false) && !o.isNil) := by
    simp only [List.getElem?_cons_zero, List.take_zero, List.nil_append, ex]
    cases b <;> cases o <;> rfl
  rw [h2]
  cases b <;> cases o.isNil <;> simp <;> omega

theorem cost_eq (t : Tree) : ∀ {p : List Bool}, ex t p = true → cost t p = 1 + p.length + (forks t p).length := by
  induction t with
  | nil => intro p h; simp [ex] at h
  | node d net z o ihz iho =>
    intro p hp
    cases p with
    | nil => rfl
    | cons b p =>
      rw [forks_cons]
      cases b with
      | true => simp only [cost, iho hp, List.length_cons]; simp; omega
      | false => simp only [cost, ihz hp, List.length_cons]; cases o.isNil <;> simp <;> omega

/-- When the stack of the enumerator is too small. -/
theorem tooDeep_iff {t : Tree} (hw : WF t) (hp : PrunedRoot t) : 256 ≤ need t ↔ TooDeep (· ∈ t.networks) := by
  have hex : ∀ n ∈ t.networks, prefixBits n = path n ∧ (path n).length = n.pfx ∧ ex t (path n) = true := by
    intro n hn
    obtain ⟨hb, hl⟩ := (mem_networks_wf hw).mp hn
    exact ⟨prefixBits_eq hb.le, length_path hb.le, look_ex hl⟩
  have hbr : ∀ n ∈ t.networks, ∀ k, BranchesOff (· ∈ t.networks) n k ↔ k ∈ forks t (path n) := by
    intro n hn k
    obtain ⟨h1, h2, h3⟩ := hex n hn
    unfold BranchesOff forks
    rw [h1, List.mem_filter, List.mem_range, Bool.and_eq_true, beq_iff_eq, prunedRoot_ex hw hp]
    constructor
    · rintro ⟨h4, m, hm, h5⟩
      refine ⟨(List.getElem?_eq_some_iff.mp h4).1, h4, .inr ⟨m, hm, ?_⟩⟩
      rw [← (hex m hm).1]; exact h5
    · rintro ⟨-, h4, h5 | ⟨m, hm, h5⟩⟩
      · simp at h5
      · refine ⟨h4, m, hm, ?_⟩
        rw [(hex m hm).1]; exact h5
  rw [le_need (by decide)]
  constructor
  · rintro ⟨p, h1, h2⟩
    rcases (prunedRoot_ex hw hp p).mp h1 with rfl | ⟨n, hn, h3⟩
    · cases t with
      | nil => cases h1
      | node => simp only [cost] at h2; omega
    · obtain ⟨e1, e2, e3⟩ := hex n hn
      have h4 := cost_mono t h3 e3
      rw [cost_eq t e3, e2] at h4
      refine ⟨n, hn, forks t (path n), List.nodup_range.filter _, fun k hk => (hbr n hn k).mpr hk, by omega⟩
  · rintro ⟨n, hn, ks, h1, h2, h3⟩
    obtain ⟨e1, e2, e3⟩ := hex n hn
    refine ⟨path n, e3, ?_⟩
    rw [cost_eq t e3, e2]
    have := nodup_length_le h1 (fun k hk => (hbr n hn k).mp (h2 k hk))
    omega

theorem stale_iff {n : Network} (h : Block n) : Stale n ↔ AroundV4 n := by
  have hlo : value (#v[0, 0, 0, 0, 0, 0, 0, 0, 0, 0, 0xff, 0xff, 0, 0, 0, 0] : Addr) = 0xffff00000000 := by decide
  have hhi : value (#v[0, 0, 0, 0, 0, 0, 0, 0, 0, 0, 0xff, 0xff, 0xff, 0xff, 0xff, 0xff] : Addr) = 0xffffffffffff := by decide
  have plo : v4path <+: bits (#v[0, 0, 0, 0, 0, 0, 0, 0, 0, 0, 0xff, 0xff, 0, 0, 0, 0] : Addr) := by decide
  have phi : v4path <+: bits (#v[0, 0, 0, 0, 0, 0, 0, 0, 0, 0, 0xff, 0xff, 0xff, 0xff, 0xff, 0xff] : Addr) := by decide
  unfold Stale AroundV4
  refine and_congr_right fun h1 => and_congr_right fun h2 => ?_
  constructor
  · intro hp
    have a1 := (contains_iff_path h _).mpr (hp.trans plo)
    have a2 := (contains_iff_path h _).mpr (hp.trans phi)
    unfold Contains at a1 a2
    rw [hlo] at a1
    rw [hhi] at a2
    exact ⟨a1.1, a2.2⟩
  · rintro ⟨a1, a2⟩
    have hc : Contains n (#v[0, 0, 0, 0, 0, 0, 0, 0, 0, 0, 0xff, 0xff, 0, 0, 0, 0] : Addr) := by
      unfold Contains
      rw [hlo]
      omega
    have := (contains_iff_path h _).mp hc
    rcases prefix_or_prefix this plo with h3 | h3
    · exact h3
    · have := h3.length_le
      rw [length_v4path, length_path h.le] at this
      omega

/-- The filters select what they say. -/
theorem matchNetwork_iff {f : Filter} (hf : FilterOk f) {n : Network} (hb : Block n) (hc : CountryOk n) : matchNetwork f n = true ↔ Wanted f n := by
  have hfam : (f.family ≠ 0 ∧ familyNumber n.family ≠ f.family) ↔ ¬ (f.family ≠ 0 → f.family = 2 ∧ IsV4 n.first ∨ f.family = 10 ∧ ¬ IsV4 n.first) := by
    have h1 := hb.fam
    cases hn : n.family with
    | inet =>
      rw [hn] at h1
      have h2 : IsV4 n.first := h1.mp rfl
      simp only [familyNumber, h2, and_true, not_true, and_false, or_false]
      omega
    | inet6 =>
      rw [hn] at h1
      have h2 : ¬ IsV4 n.first := fun h => by cases h1.mpr h
      simp only [familyNumber, h2, and_false, false_or, not_false_eq_true, and_true]
      omega
  have hcountry : (match f.countries with
      | some l => !l.isEmpty && countryListContainsCode l (countryCode n)
      | none => false) = true ↔ ∃ l, f.countries = some l ∧ ∃ c ∈ l, [c.c0, c.c1] = (props n).1 := by
    cases hl : f.countries with
    | none => simp
    | some l =>
      simp only [Bool.and_eq_true, Bool.not_eq_true', Option.some.injEq, exists_eq_left']
      have hval := hf l hl
      by_cases h0 : n.cc0 = 0
      · have h1 : countryCode n = [] := by unfold countryCode ccString; rw [if_pos h0]
        have h2 : (props n).1 = [] := by unfold props; simp only [if_pos h0]
        rw [h1, h2]
        constructor
        · rintro ⟨-, h⟩; cases h
        · rintro ⟨c, -, h⟩; cases h
      · have hv := (ccIsValid_iff _).mpr (hc.resolve_left h0)
        have h1 := (valid_ne_zero hv).2
        have h2 : countryCode n = [n.cc0, n.cc1] := by unfold countryCode ccString; rw [if_neg h0, if_neg h1]
        have h3 : (props n).1 = [n.cc0, n.cc1] := by unfold props; simp only [if_neg h0, if_neg h1]
        have h4 : countryNew (some [n.cc0, n.cc1]) = .ok ⟨n.cc0, n.cc1, 0, 0, none⟩ := by
          unfold countryNew
          rw [hv]
          rfl
        rw [h2, h3]
        simp only [countryListContainsCode, h4, countryListContains, List.any_eq_true, beq_iff_eq, countryCmp, ccCmp_zero,
          List.cons.injEq, and_true]
        constructor
        · rintro ⟨-, c, hc, h5, h6⟩; exact ⟨c, hc, h5.symm, h6.symm⟩
        · rintro ⟨c, hc, h5, h6⟩
          refine ⟨?_, c, hc, h5.symm, h6.symm⟩
          cases l with
          | nil => cases hc
          | cons => rfl
  have hasn : (match f.asns with
      | some l => !l.isEmpty && asListContains l n.asn
      | none => false) = true ↔ ∃ l, f.asns = some l ∧ ∃ a ∈ l, a.number = n.asn := by
    cases f.asns with
    | none => simp
    | some l =>
      simp only [Bool.and_eq_true, Bool.not_eq_true', Option.some.injEq, exists_eq_left', asListContains, List.any_eq_true, beq_iff_eq]
      constructor
      · rintro ⟨-, h⟩; exact h
      · rintro ⟨a, ha, h⟩
        refine ⟨?_, a, ha, h⟩
        cases l with
        | nil => cases ha
        | cons => rfl
  have hflag : (f.flags ≠ 0 ∧ hasFlag n f.flags ≠ 0) ↔ ∃ i, f.flags.getLsbD i = true ∧ n.flags.getLsbD i = true := by
    unfold hasFlag
    constructor
    · rintro ⟨-, h⟩
      by_contra hno
      apply h
      apply BitVec.eq_of_getLsbD_eq
      intro i hi
      rw [BitVec.getLsbD_and]
      simp only [BitVec.ofNat_eq_ofNat, BitVec.getLsbD_zero, Bool.and_eq_false_iff]
      by_contra hx
      rw [not_or, Bool.not_eq_false, Bool.not_eq_false] at hx
      exact hno ⟨i, hx.2, hx.1⟩
    · rintro ⟨i, h1, h2⟩
      refine ⟨fun h => ?_, fun h => ?_⟩
      · rw [h] at h1; simp at h1
      · have := congrArg (·.getLsbD i) h
        simp [h1, h2] at this
  obtain ⟨A, hA⟩ : ∃ A : Bool, A = (match f.countries with
      | some l => !l.isEmpty && countryListContainsCode l (countryCode n)
      | none => false) := ⟨_, rfl⟩
  obtain ⟨B, hB⟩ : ∃ B : Bool, B = (match f.asns with
      | some l => !l.isEmpty && asListContains l n.asn
      | none => false) := ⟨_, rfl⟩
  have key : matchNetwork f n = (if f.family ≠ 0 ∧ familyNumber n.family ≠ f.family then false
      else if f.countries.isNone ∧ f.asns.isNone ∧ f.flags = 0 then true
      else if A then true else if B then true else if f.flags ≠ 0 ∧ hasFlag n f.flags ≠ 0 then true else false) := by
    rw [hA, hB]; rfl
  rw [← hA] at hcountry
  rw [← hB] at hasn
  rw [key]
  unfold Wanted
  by_cases h1 : f.family ≠ 0 ∧ familyNumber n.family ≠ f.family
  · rw [if_pos h1]
    exact ⟨fun h => (by cases h), fun h => absurd h.1 (hfam.mp h1)⟩
  rw [if_neg h1]
  have h1' := Decidable.not_not.mp (fun h => h1 (hfam.mpr h))
  by_cases h2 : f.countries.isNone = true ∧ f.asns.isNone = true ∧ f.flags = 0
  · rw [if_pos h2]
    simp only [Option.isNone_iff_eq_none] at h2
    exact ⟨fun _ => ⟨h1', .inl h2⟩, fun _ => rfl⟩
  rw [if_neg h2]
  simp only [Option.isNone_iff_eq_none] at h2
  rw [← hcountry, ← hasn, ← hflag]
  by_cases h3 : A = true
  · rw [if_pos h3]
    exact ⟨fun _ => ⟨h1', .inr (.inl h3)⟩, fun _ => rfl⟩
  rw [if_neg h3]
  by_cases h4 : B = true
  · rw [if_pos h4]
    exact ⟨fun _ => ⟨h1', .inr (.inr (.inl h4))⟩, fun _ => rfl⟩
  rw [if_neg h4]
  by_cases h5 : f.flags ≠ 0 ∧ hasFlag n f.flags ≠ 0
  · rw [if_pos h5]
    exact ⟨fun _ => ⟨h1', .inr (.inr (.inr h5))⟩, fun _ => rfl⟩
  rw [if_neg h5]
  constructor
  · intro h; cases h
  · rintro ⟨-, h | h | h | h⟩
    · exact absurd h h2
    · exact absurd h h3
    · exact absurd h h4
    · exact absurd h h5

end Loc
