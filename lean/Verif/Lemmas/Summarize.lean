import Verif.Spec.Summarize
import Verif.Lemmas.Flatten
/-
`loc_network_list_summarize`.
-/
namespace Loc
open Spec

theorem famStart_eq (a : Addr) : famStart a = if IsV4 a then 96 else 0 := by
  unfold famStart
  rw [isV4Mapped_eq_decide]
  by_cases h : IsV4 a <;> simp [h]

theorem family_iff {a b : Addr} : addrFamily a = addrFamily b ↔ (IsV4 a ↔ IsV4 b) := by
  unfold addrFamily
  rw [isV4Mapped_eq_decide, isV4Mapped_eq_decide]
  by_cases h1 : IsV4 a <;> by_cases h2 : IsV4 b <;> simp [h1, h2]

theorem inside_range {m n : Network} (hm : Block m) (h : Inside m n) : value n.first ≤ value m.first ∧ value m.last ≤ value n.last := by
  have := hm.last_eq
  exact ⟨(h m.first ⟨Nat.le_refl _, by omega⟩).1, (h m.last ⟨by omega, Nat.le_refl _⟩).2⟩

/-- The network made from the common bits. -/
theorem hull_ok {a b : Addr} (hf : IsV4 a ↔ IsV4 b) (h : value a ≤ value b) :
    ∃ c, commonBits a b = .ok c ∧ (0 < c → ∃ n, newNetwork a c = .ok n ∧ SmallestBlock a b n ∧ n.family = addrFamily a ∧ n.cc0 = 0) ∧ (c = 0 → AcrossMiddle a b) := by
  obtain ⟨c, h1, h2, h3, h4⟩ := commonBits_spec a b (family_iff.mpr hf)
  have h3' := (agreeOn_iff _ h2 a b).mpr h3
  refine ⟨c, h1, fun hc => ?_, fun hc => ?_⟩
  · obtain ⟨n, n1, n2, n3, n4, n5, n6, -⟩ := newNetwork_ok a c h2
    have ha : path n <+: bits a := by rw [n4]; exact List.take_prefix _ _
    have hb : path n <+: bits b := by
      rw [isPrefix_bits_iff _ _ (by rw [length_path n2.le]; exact n2.le), length_path n2.le, n4, natOfBits_take _ _ h2, n3]
      exact h3'
    refine ⟨n, n1, ⟨n2, (contains_iff_path n2 a).mpr ha, (contains_iff_path n2 b).mpr hb, ?_⟩, n5, n6⟩
    intro m hm ma mb
    rw [contains_iff_path hm] at ma mb
    rw [inside_iff_path n2 hm]
    refine List.prefix_of_prefix_length_le ma ha ?_
    rw [length_path hm.le, length_path n2.le, n3]
    by_contra hlt
    have hlt2 : famStart a + c < 128 := by have := hm.le; omega
    refine h4 hlt2 ?_
    rw [isPrefix_bits_iff _ _ (by rw [length_path hm.le]; exact hm.le), length_path hm.le] at ma mb
    have : AgreeOn m.pfx a b := ma.symm.trans mb
    exact (agreeOn_iff _ hm.le a b).mp this _ (by omega)
  · subst hc
    rw [Nat.add_zero] at h2 h4
    have hlt : famStart a < 128 := by rw [famStart_eq]; split <;> omega
    have h5 : ¬ AgreeOn (famStart a + 1) a b := fun h6 => h4 hlt ((agreeOn_iff _ (by omega) a b).mp h6 _ (by omega))
    unfold AgreeOn at h5
    rw [famStart_eq] at h5
    unfold AcrossMiddle familyMiddle
    have va := value_lt a
    have vb := value_lt b
    by_cases h6 : IsV4 a
    · have h7 := hf.mp h6
      rw [if_pos h6] at h5 ⊢
      unfold IsV4 at h6 h7
      simp only [Nat.reduceAdd, Nat.reduceSub, Nat.reducePow] at h5 h6 h7
      omega
    · rw [if_neg h6] at h5 ⊢
      simp only [Nat.reduceAdd, Nat.reduceSub, Nat.reducePow] at h5 va vb ⊢
      omega

theorem smallest_not_halves {a b : Addr} (hf : IsV4 a ↔ IsV4 b) (hh : AcrossMiddle a b) {c : Nat} (hc : commonBits a b = .ok c) : c = 0 := by
  obtain ⟨c', h1, h2, h3, h4⟩ := commonBits_spec a b (family_iff.mpr hf)
  rw [hc] at h1
  cases h1
  by_contra hne
  have h5 : AgreeOn (famStart a + 1) a b := (agreeOn_iff _ (by omega) a b).mpr fun i hi => h3 i (by omega)
  unfold AgreeOn at h5
  rw [famStart_eq] at h5
  unfold AcrossMiddle familyMiddle at hh
  have va := value_lt a
  have vb := value_lt b
  by_cases h6 : IsV4 a
  · have h7 := hf.mp h6
    rw [if_pos h6] at h5 hh
    unfold IsV4 at h6 h7
    simp only [Nat.reduceAdd, Nat.reduceSub, Nat.reducePow] at h5 h6 h7
    omega
  · rw [if_neg h6] at h5 hh
    simp only [Nat.reduceAdd, Nat.reduceSub, Nat.reducePow] at h5 va vb hh
    omega

/-- `x` belongs to one of the networks of the family. -/
def CoversF (F : Family) (l : List Network) (x : Addr) : Prop := ∃ n ∈ l, n.family = F ∧ Contains n x

theorem sameBlock_family {m n : Network} (hm : Block m) (hn : Block n) (h : SameBlock m n) : m.family = n.family := by
  have h1 := hm.fam
  have h2 := hn.fam
  rw [value_inj h.1] at h1
  cases e1 : m.family <;> cases e2 : n.family <;> simp_all

theorem push_coversF {l : NetList} (h : Ascending l) (n : Network) (hn : Block n) (hl : ∀ m ∈ l, Block m) {l' : NetList} (hp : listPush l n = .ok l') (F : Family) (x : Addr) :
    CoversF F l' x ↔ CoversF F l x ∨ (n.family = F ∧ Contains n x) := by
  obtain ⟨l2, h1, h2, h3⟩ := listPush_mem l n h
  rw [hp] at h1
  cases h1
  constructor
  · rintro ⟨m, hm, hx⟩
    rcases (h3 m).mp hm with hm | ⟨rfl, -⟩
    · exact .inl ⟨m, hm, hx⟩
    · exact .inr hx
  · rintro (⟨m, hm, hx⟩ | ⟨hf, hx⟩)
    · exact ⟨m, (h3 m).mpr (.inl hm), hx⟩
    · by_cases he : ∃ e ∈ l, SameBlock n e
      · obtain ⟨e, he, hs⟩ := he
        refine ⟨e, (h3 e).mpr (.inl he), (sameBlock_family hn (hl e he) hs).symm.trans hf, ?_⟩
        rw [contains_iff_path (hl e he), ← (sameBlock_iff_path hn (hl e he)).mp hs, ← contains_iff_path hn]
        exact hx
      · exact ⟨n, (h3 n).mpr (.inr ⟨rfl, he⟩), hf, hx⟩

theorem push_covers {l : NetList} (h : Ascending l) (n : Network) (hn : Block n) (hl : ∀ m ∈ l, Block m) :
    ∃ l', listPush l n = .ok l' ∧ Ascending l' ∧ (∀ x, Covers l' x ↔ Covers l x ∨ Contains n x) ∧ (∀ m ∈ l', m ∈ l ∨ m = n) ∧ l' ≠ [] ∧
      ∀ F x, CoversF F l' x ↔ CoversF F l x ∨ (n.family = F ∧ Contains n x) := by
  obtain ⟨l', h1, h2, h3⟩ := listPush_mem l n h
  refine ⟨l', h1, h2, fun x => ?_, fun m hm => ((h3 m).mp hm).imp id And.left, ?_, push_coversF h n hn hl h1⟩
  · constructor
    · rintro ⟨m, hm, hx⟩
      rcases (h3 m).mp hm with hm | ⟨rfl, -⟩
      · exact .inl ⟨m, hm, hx⟩
      · exact .inr hx
    · rintro (⟨m, hm, hx⟩ | hx)
      · exact ⟨m, (h3 m).mpr (.inl hm), hx⟩
      · by_cases he : ∃ e ∈ l, SameBlock n e
        · obtain ⟨e, he, hs⟩ := he
          refine ⟨e, (h3 e).mpr (.inl he), ?_⟩
          rw [contains_iff_path (hl e he), ← (sameBlock_iff_path hn (hl e he)).mp hs, ← contains_iff_path hn]
          exact hx
        · exact ⟨n, (h3 n).mpr (.inr ⟨rfl, he⟩), hx⟩
  · rintro rfl
    by_cases he : ∃ e ∈ l, SameBlock n e
    · obtain ⟨e, he, -⟩ := he
      exact absurd ((h3 e).mpr (.inl he)) (by simp)
    · exact absurd ((h3 n).mpr (.inr ⟨rfl, he⟩)) (by simp)

/-- The loop ends after a network that contains the last address. -/
theorem summarize_end {last : Addr} {n : Network} {l : NetList} (h : value last ≤ value n.last) (fuel : Nat) :
    (if allOnes n.last = true then Except.ok l else summarizeLoop (addrInc n.last) last l (fuel + 1) : Res NetList) = .ok l := by
  by_cases ha : allOnes n.last = true
  · rw [if_pos ha]
  · rw [if_neg ha]
    have hv : value (addrInc n.last) = value n.last + 1 := by
      rw [value_addrInc, if_neg (fun e => ha ((allOnes_iff_value _).mpr e))]
    rw [summarizeLoop, if_neg (by rw [addrCmp_nonpos, hv]; omega)]

theorem summarizeLoop_eq (start last : Addr) (list : NetList) (fuel : Nat) (h : value start ≤ value last) {c : Nat} {n : Network} {l : NetList}
    (hc : commonBits start last = .ok c) (hn : newNetwork start (if c = 0 then 1 else c) = .ok n) (hp : listPush list n = .ok l) :
    summarizeLoop start last list (fuel + 1) = if allOnes n.last = true then .ok l else summarizeLoop (addrInc n.last) last l fuel := by
  rw [summarizeLoop, if_pos (addrCmp_nonpos.mpr h), hc]
  show ((newNetwork start (if c = 0 then 1 else c)).bind _) = _
  rw [hn]
  show ((listPush list n).bind _) = _
  rw [hp]
  rfl

theorem smallest_family {a b : Addr} {n : Network} (h : SmallestBlock a b n) : value a ≤ value n.last ∧ value b ≤ value n.last ∧ value n.first ≤ value a :=
  ⟨h.2.1.2, h.2.2.1.2, h.2.1.1⟩

/-- One round: if the common bits are not empty. -/
theorem summarize_one {a b : Addr} (hf : IsV4 a ↔ IsV4 b) (h : value a ≤ value b) (hh : ¬ AcrossMiddle a b) {list : NetList} (ha : Ascending list)
    (hl : ∀ m ∈ list, Block m) (fuel : Nat) :
    ∃ n l', summarizeLoop a b list (fuel + 2) = .ok l' ∧ SmallestBlock a b n ∧ Ascending l' ∧ (∀ x, Covers l' x ↔ Covers list x ∨ Contains n x) ∧
      (∀ m ∈ l', m ∈ list ∨ m = n) ∧ l' ≠ [] ∧ n.family = addrFamily a ∧ ∀ F x, CoversF F l' x ↔ CoversF F list x ∨ (n.family = F ∧ Contains n x) := by
  obtain ⟨c, h1, h2, h3⟩ := hull_ok hf h
  have hc : 0 < c := by
    rcases Nat.eq_zero_or_pos c with h | h
    · exact absurd (h3 h) hh
    · exact h
  obtain ⟨n, n1, n2, n3, n4⟩ := h2 hc
  obtain ⟨l', p1, p2, p3, p4, p5, p6⟩ := push_covers ha n n2.1 hl
  refine ⟨n, l', ?_, n2, p2, p3, p4, p5, n3, p6⟩
  rw [summarizeLoop_eq a b list (fuel + 1) h h1 (by rw [if_neg (by omega)]; exact n1) p1]
  exact summarize_end (smallest_family n2).2.1 fuel

/-- Two rounds: if the addresses lie in different halves of the family. -/
theorem summarize_two {a b : Addr} (hf : IsV4 a ↔ IsV4 b) (hh : AcrossMiddle a b) {list : NetList} (ha : Ascending list)
    (hl : ∀ m ∈ list, Block m) (fuel : Nat) :
    ∃ n1 n2 mid l', summarizeLoop a b list (fuel + 3) = .ok l' ∧ Block n1 ∧ value n1.first = familyFirst a ∧ value n1.last + 1 = familyMiddle a ∧
      value mid = familyMiddle a ∧ SmallestBlock mid b n2 ∧ value n2.first = familyMiddle a ∧ Ascending l' ∧
      (∀ x, Covers l' x ↔ Covers list x ∨ Contains n1 x ∨ Contains n2 x) ∧ (∀ m ∈ l', m ∈ list ∨ m = n1 ∨ m = n2) ∧ l' ≠ [] ∧
      n1.family = addrFamily a ∧ n2.family = addrFamily a ∧
      ∀ F x, CoversF F l' x ↔ CoversF F list x ∨ (n1.family = F ∧ Contains n1 x) ∨ (n2.family = F ∧ Contains n2 x) := by
  have hab : value a ≤ value b := by unfold AcrossMiddle at hh; omega
  obtain ⟨c, h1, -, -⟩ := hull_ok hf hab
  have hc := smallest_not_halves hf hh h1
  subst hc
  have hle : famStart a + 1 ≤ 128 := by rw [famStart_eq]; split <;> omega
  obtain ⟨n, n1, n2, n3, n4, n5, n6, -⟩ := newNetwork_ok a 1 hle
  obtain ⟨l1, p1, p2, p3, p4, p5, p6⟩ := push_covers ha n n2 hl
  have hq : natOfBits (path n) = value a / 2 ^ (128 - (famStart a + 1)) := by rw [n4, natOfBits_take _ _ hle]
  have hfirst : value n.first = familyFirst a ∧ value n.last + 1 = familyMiddle a := by
    have hval := natOfBits_path n2
    have hlast := n2.last_eq
    rw [hq, n3] at hval
    rw [n3] at hlast
    have hlo := hh.1
    have va := value_lt a
    unfold familyMiddle at hlo ⊢
    unfold familyFirst
    rw [famStart_eq] at hval hlast
    by_cases h6 : IsV4 a
    · have h6' := h6
      unfold IsV4 at h6'
      simp only [h6, if_true] at hlo hval hlast ⊢
      simp only [Nat.reduceAdd, Nat.reduceSub, Nat.reducePow] at *
      omega
    · simp only [h6, if_false] at hlo hval hlast ⊢
      simp only [Nat.reduceAdd, Nat.reduceSub, Nat.reducePow] at *
      omega
  have hbv : IsV4 b → IsV4 a := hf.mpr
  have hnotones : ¬ allOnes n.last = true := by
    rw [allOnes_iff_value]
    unfold famMax
    have h7 := hfirst.2
    unfold familyMiddle at h7
    by_cases h6 : IsV4 a
    · rw [if_pos h6] at h7
      have : IsV4 n.last := by unfold IsV4 at *; simp only [Nat.reducePow] at *; omega
      rw [if_pos this]
      omega
    · rw [if_neg h6] at h7
      have : ¬ IsV4 n.last := by unfold IsV4; simp only [Nat.reducePow] at *; omega
      rw [if_neg this]
      simp only [Nat.reducePow] at *
      omega
  have hmid : value (addrInc n.last) = familyMiddle a := by
    rw [value_addrInc, if_neg (fun e => hnotones ((allOnes_iff_value _).mpr e))]
    exact hfirst.2
  have hmv : IsV4 (addrInc n.last) ↔ IsV4 a := by
    unfold IsV4
    rw [hmid]
    unfold familyMiddle
    by_cases h6 : IsV4 a
    · rw [if_pos h6]
      unfold IsV4 at h6
      simp only [h6]
    · rw [if_neg h6]
      unfold IsV4 at h6
      simp only [h6, iff_false]
      decide
  have hl1 : ∀ m ∈ l1, Block m := by
    intro m hm
    rcases p4 m hm with hm | rfl
    · exact hl m hm
    · exact n2
  have hnh : ¬ AcrossMiddle (addrInc n.last) b := by
    rintro ⟨h7, -⟩
    rw [hmid] at h7
    unfold familyMiddle at h7
    simp only [hmv] at h7
    omega
  obtain ⟨n', l', q1, q2, q3, q4, q5, q6, q7, q8⟩ := summarize_one (hmv.trans hf) (by rw [hmid]; exact hh.2) hnh p2 hl1 fuel
  have hup : value n'.first = familyMiddle a := by
    obtain ⟨u, u1, u2, u3, u4, u5, u6, -⟩ := newNetwork_ok (addrInc n.last) 1 (by rw [famStart_eq]; split <;> omega)
    have hval := natOfBits_path u2
    rw [u4, natOfBits_take _ _ (by rw [famStart_eq]; split <;> omega), u3, hmid] at hval
    have hlast := u2.last_eq
    rw [u3] at hlast
    rw [famStart_eq] at hval hlast
    simp only [hmv] at hval hlast
    have vb := value_lt b
    have hb := hh.2
    have hu : value u.first = familyMiddle a ∧ value b ≤ value u.last := by
      unfold familyMiddle at *
      by_cases h6 : IsV4 a
      · have h7 := hf.mp h6
        unfold IsV4 at h7
        simp only [h6, if_true] at hval hlast hb ⊢
        simp only [Nat.reduceAdd, Nat.reduceSub, Nat.reducePow] at *
        omega
      · simp only [h6, if_false] at hval hlast hb ⊢
        simp only [Nat.reduceAdd, Nat.reduceSub, Nat.reducePow] at *
        omega
    have hin := q2.2.2.2 u u2 ⟨by omega, by omega⟩ ⟨by omega, hu.2⟩
    have := q2.2.1.1
    have := (inside_range q2.1 hin).1
    omega
  refine ⟨n, n', addrInc n.last, l', ?_, n2, hfirst.1, hfirst.2, hmid, q2, hup, q3, ?_, ?_, q6, n5, q7.trans (family_iff.mpr hmv), fun F x => by rw [q8, p6, or_assoc]⟩
  · rw [summarizeLoop_eq a b list (fuel + 2) hab h1 n1 p1, if_neg hnotones]
    exact q1
  · intro x
    rw [q4, p3, or_assoc]
  · intro m hm
    rcases q5 m hm with hm | rfl
    · exact (p4 m hm).imp id .inl
    · exact .inr (.inr rfl)

end Loc
