import Verif.Lemmas.FlatEnds
import Verif.Lemmas.BogonExact
/-
Bogon enumerations end, whatever the bytes of the file are.
-/
namespace Loc
open Spec

/-- How many gaps are open at the end. -/
def openGaps (e : NetEnum) : Nat := (if allZeroes e.gap6 then 0 else 1) + (if allZeroes e.gap4 then 0 else 1)

/-- A step of a bogon enumeration. -/
def Nearer (db : Db) (e' e : NetEnum) : Prop :=
  Prod.Lex (· < ·) (Prod.Lex (· < ·) (· < ·)) (unread db e', openGaps e', e'.stack.length) (unread db e, openGaps e, e.stack.length)

theorem nearer_wf (db : Db) : WellFounded (Nearer db) :=
  InvImage.wf (fun e : NetEnum => (unread db e, openGaps e, e.stack.length)) (WellFounded.prod_lex wellFounded_lt (WellFounded.prod_lex wellFounded_lt wellFounded_lt))

theorem nearer_of {db : Db} {e' e : NetEnum} (h : unread db e' < unread db e ∨ (unread db e' ≤ unread db e ∧ openGaps e' < openGaps e)) : Nearer db e' e := by
  rcases h with h | ⟨h1, h2⟩
  · exact Prod.Lex.left _ _ h
  · rcases Nat.lt_or_eq_of_le h1 with h | h
    · exact Prod.Lex.left _ _ h
    · unfold Nearer
      rw [h]
      exact Prod.Lex.right _ (Prod.Lex.left _ _ h2)

theorem raw_gaps {db : Db} {e : NetEnum} (hs : e.stack = []) {x : Next Network} {e' : NetEnum} (h : nextNetworkRaw db true e = .ok (x, e')) :
    e'.gap6 = e.gap6 ∧ e'.gap4 = e.gap4 := by
  unfold nextNetworkRaw at h
  rw [hs] at h
  exact (dfs_more db true _ _ _ _ h).2.1

theorem finish_ends {db : Db} {e : NetEnum} (hi : GInv db e) (hs : e.stack = []) :
    finishBogons e ≠ .error .diverge ∧ ∀ x e', finishBogons e = .ok (x, e') → GInv db e' ∧ unread db e' = unread db e ∧ (∀ n, x = .item n → openGaps e' < openGaps e) := by
  have step : ∀ (g h : Addr) (st : NetList), Ascending st → (∀ m ∈ st, Block m) →
      (if !allZeroes g then pushGap g h st else .ok (some st)) = .ok none ∨
      ∃ s, (if !allZeroes g then pushGap g h st else .ok (some st)) = .ok (some s) ∧ Ascending s ∧ (∀ m ∈ s, Block m) ∧ (allZeroes g = true → s = st) := by
    intro g h st ha hb
    cases hz : allZeroes g with
    | false =>
      rcases pushGap_total g h ha hb with h1 | ⟨s, h1, h2, h3⟩
      · exact .inl h1
      · exact .inr ⟨s, h1, h2, h3, fun h => by cases h⟩
    | true => exact .inr ⟨st, rfl, ha, hb, fun _ => rfl⟩
  have z6 : allZeroes (addrReset .inet6) = true := by decide
  have z4 : allZeroes (addrReset .inet) = true := by decide
  have r6 : allZeroes (if !allZeroes e.gap6 then addrReset .inet6 else e.gap6) = true := by
    cases hz : allZeroes e.gap6
    · exact z6
    · exact hz
  have r4 : allZeroes (if !allZeroes e.gap4 then addrReset .inet else e.gap4) = true := by
    cases hz : allZeroes e.gap4
    · exact z4
    · exact hz
  unfold finishBogons
  rcases step e.gap6 (addrResetLast .inet6) e.stack (by rw [hs]; exact .nil) (by rw [hs]; simp) with h1 | ⟨s, h1, h2, h3, h4⟩
  · rw [h1]
    refine ⟨(fun h => by cases h), fun x e' h => ?_⟩
    cases h
    exact ⟨hi, rfl, fun n h => by cases h⟩
  · rw [h1]
    simp only
    rcases step e.gap4 (addrResetLast .inet) s h2 h3 with k1 | ⟨t, k1, k2, k3, k4⟩
    · rw [k1]
      refine ⟨(fun h => by cases h), fun x e' h => ?_⟩
      cases h
      exact ⟨⟨hi.nodup, hi.range⟩, rfl, fun n h => by cases h⟩
    · rw [k1]
      simp only
      refine ⟨(fun h => by cases h), fun x e' h => ?_⟩
      unfold popBogon at h
      cases t with
      | nil =>
        cases h
        exact ⟨⟨hi.nodup, hi.range⟩, rfl, fun n h => by cases h⟩
      | cons b t =>
        cases h
        refine ⟨⟨hi.nodup, hi.range⟩, rfl, fun n _ => ?_⟩
        have hopen : 0 < openGaps e := by
          unfold openGaps
          cases g6 : allZeroes e.gap6 with
          | false => simp
          | true =>
            cases g4 : allZeroes e.gap4 with
            | false => simp
            | true =>
              have := k4 g4
              rw [h4 g6, hs] at this
              cases this
        unfold openGaps at hopen ⊢
        simp only
        rw [r6, r4]
        simpa using hopen

theorem bogonLoop_ends (db : Db) : ∀ (fuel : Nat) (e : NetEnum), GInv db e → e.stack = [] → unread db e < fuel →
    bogonLoop db fuel e ≠ .error .diverge ∧ ∀ x e', bogonLoop db fuel e = .ok (x, e') → GInv db e' ∧ unread db e' ≤ unread db e ∧
      ∀ n, x = .item n → unread db e' < unread db e ∨ openGaps e' < openGaps e := by
  intro fuel
  induction fuel with
  | zero => intro e _ _ h; omega
  | succ fuel ih =>
    intro e hi hs hf
    obtain ⟨r1, r2⟩ := raw_step (e := e) ⟨hi, by rw [hs]; exact ⟨List.Pairwise.nil, by simp, by simp⟩⟩ true
    rw [bogonLoop]
    cases hr : nextNetworkRaw db true e with
    | error x =>
      rw [hr] at r1
      exact ⟨fun h => r1 (by cases h; rfl), fun r e' h => by cases h⟩
    | ok r =>
      obtain ⟨x, e1⟩ := r
      obtain ⟨⟨i1, -⟩, i2, i3⟩ := r2 x e1 hr
      obtain ⟨g6, g4⟩ := raw_gaps hs hr
      have i4 : e1.stack = [] ∧ ((x = .done ∧ unread db e1 ≤ unread db e) ∨ (x ≠ .done ∧ unread db e1 < unread db e)) := by
        rcases i3 with ⟨n, pre, -, h, -⟩ | ⟨h1, ⟨h2, -, h3⟩ | h2⟩
        · rw [hs] at h
          exact absurd (congrArg List.length h) (by simp)
        · exact ⟨h1, .inl ⟨h2, h3⟩⟩
        · exact ⟨h1, .inr h2⟩
      obtain ⟨s1, i4⟩ := i4
      cases x with
      | failed =>
        refine ⟨(fun h => by cases h), fun r e' h => ?_⟩
        cases h
        rcases i4 with ⟨h, -⟩ | ⟨-, h⟩
        · cases h
        · exact ⟨i1, by omega, fun n h => by cases h⟩
      | failedHeld =>
        refine ⟨(fun h => by cases h), fun r e' h => ?_⟩
        cases h
        rcases i4 with ⟨h, -⟩ | ⟨-, h⟩
        · cases h
        · exact ⟨i1, by omega, fun n h => by cases h⟩
      | done =>
        obtain ⟨f1, f2⟩ := finish_ends i1 s1
        refine ⟨f1, fun x e' h => ?_⟩
        obtain ⟨f3, f4, f5⟩ := f2 x e' h
        have hu : unread db e1 ≤ unread db e := by
          rcases i4 with ⟨-, h⟩ | ⟨h, -⟩
          · exact h
          · exact absurd rfl h
        have ho : openGaps e1 = openGaps e := by unfold openGaps; rw [g6, g4]
        exact ⟨f3, by omega, fun n hn => .inr (by have := f5 n hn; omega)⟩
      | item n =>
        have hu : unread db e1 < unread db e := by
          rcases i4 with ⟨h, -⟩ | ⟨-, h⟩
          · cases h
          · exact h
        have hgo : ∀ e2 : NetEnum, GInv db e2 → e2.stack = [] → unread db e2 = unread db e1 →
            bogonLoop db fuel e2 ≠ .error .diverge ∧ ∀ x e', bogonLoop db fuel e2 = .ok (x, e') → GInv db e' ∧ unread db e' ≤ unread db e ∧
              ∀ n, x = .item n → unread db e' < unread db e ∨ openGaps e' < openGaps e := by
          intro e2 h1 h2 h3
          obtain ⟨q1, q2⟩ := ih e2 h1 h2 (by omega)
          refine ⟨q1, fun x e' h => ?_⟩
          obtain ⟨q3, q4, -⟩ := q2 x e' h
          exact ⟨q3, by omega, fun n _ => .inl (by omega)⟩
        simp only
        by_cases hc : countryCode n = []
        · rw [if_pos hc]
          exact hgo e1 i1 s1 rfl
        rw [if_neg hc]
        by_cases hcmp : addrCmp (gapOf e1.gap6 e1.gap4 n.family) n.last ≥ 0
        · rw [if_pos hcmp]
          exact hgo e1 i1 s1 rfl
        rw [if_neg hcmp]
        rcases pushGap_total (gapOf e1.gap6 e1.gap4 n.family) (addrDec n.first) (list := e1.stack) (by rw [s1]; exact .nil) (by rw [s1]; simp) with h1 | ⟨s, h1, -, -⟩
        · rw [h1]
          refine ⟨(fun h => by cases h), fun r e' h => ?_⟩
          cases h
          exact ⟨i1, by omega, fun n h => by cases h⟩
        · rw [h1]
          simp only
          cases s with
          | nil => exact hgo _ ⟨i1.nodup, i1.range⟩ rfl rfl
          | cons b l =>
            refine ⟨(fun h => by cases h), fun r e' h => ?_⟩
            cases h
            exact ⟨⟨i1.nodup, i1.range⟩, Nat.le_of_lt hu, fun n _ => .inl hu⟩

theorem unread_le (db : Db) (e : NetEnum) : unread db e ≤ db.nodeCount := Nat.sub_le _ _

theorem nextBogon_ends (db : Db) {f0 : Nat} (hf : db.nodeCount < f0) {e : NetEnum} (hi : GInv db e) :
    nextBogon db f0 e ≠ .error .diverge ∧ ∀ x e', nextBogon db f0 e = .ok (x, e') → GInv db e' ∧ ∀ n, x = .item n → Nearer db e' e := by
  unfold nextBogon
  cases hs : e.stack with
  | cons b l =>
    refine ⟨(fun h => by cases h), fun x e' h => ?_⟩
    cases h
    refine ⟨⟨hi.nodup, hi.range⟩, fun n _ => ?_⟩
    unfold Nearer
    rw [hs]
    exact Prod.Lex.right _ (Prod.Lex.right _ (Nat.lt_succ_self _))
  | nil =>
    have := unread_le db e
    obtain ⟨b1, b2⟩ := bogonLoop_ends db f0 e hi hs (by omega)
    refine ⟨b1, fun x e' h => ?_⟩
    obtain ⟨c1, c2, c3⟩ := b2 x e' h
    exact ⟨c1, fun n hn => nearer_of ((c3 n hn).imp_right fun h => ⟨c2, h⟩)⟩

theorem calls_bogon (db : Db) {f0 : Nat} (hf : db.nodeCount < f0) : ∀ (k : Nat) (e : NetEnum), GInv db e → calls (nextBogon db f0) k e ≠ .error .diverge := by
  intro k
  induction k with
  | zero => intro e _ h; cases h
  | succ k ih =>
    intro e hi
    obtain ⟨b1, b2⟩ := nextBogon_ends db hf hi
    rw [calls]
    cases hn : nextBogon db f0 e with
    | error x =>
      rw [hn] at b1
      exact fun h => b1 (by cases h; rfl)
    | ok r =>
      obtain ⟨x, e1⟩ := r
      have := ih e1 (b2 x e1 hn).1
      simp only
      cases hc : calls (nextBogon db f0) k e1 with
      | error y =>
        rw [hc] at this
        exact fun h => this (by cases h; rfl)
      | ok r => exact fun h => by cases h

theorem drain_bogon (db : Db) {f0 : Nat} (hf : db.nodeCount < f0) (e : NetEnum) : GInv db e → ∃ K, ∀ fuel, K ≤ fuel → drain (nextBogon db f0) fuel e ≠ .error .diverge := by
  induction e using (nearer_wf db).induction with
  | _ e ih =>
    intro hi
    obtain ⟨b1, b2⟩ := nextBogon_ends db hf hi
    cases hn : nextBogon db f0 e with
    | error x =>
      refine ⟨1, fun fuel hfuel => ?_⟩
      obtain ⟨g, rfl⟩ : ∃ g, fuel = g + 1 := ⟨fuel - 1, by omega⟩
      rw [drain, hn]
      rw [hn] at b1
      exact fun h => b1 (by cases h; rfl)
    | ok r =>
      obtain ⟨x, e1⟩ := r
      obtain ⟨c1, c2⟩ := b2 x e1 hn
      have one : ∀ r, (∀ g, drain (nextBogon db f0) (g + 1) e = .ok r) → ∃ K, ∀ fuel, K ≤ fuel → drain (nextBogon db f0) fuel e ≠ .error .diverge := by
        intro r h
        refine ⟨1, fun fuel hfuel => ?_⟩
        obtain ⟨g, rfl⟩ : ∃ g, fuel = g + 1 := ⟨fuel - 1, by omega⟩
        rw [h]
        exact fun h => by cases h
      cases x with
      | done => exact one ([], true, e1) (fun g => by rw [drain, hn])
      | failed => exact one ([], false, e1) (fun g => by rw [drain, hn])
      | failedHeld => exact one ([], false, e1) (fun g => by rw [drain, hn])
      | item n =>
        obtain ⟨K, hK⟩ := ih e1 (c2 n rfl) c1
        refine ⟨K + 1, fun fuel hfuel => ?_⟩
        obtain ⟨g, rfl⟩ : ∃ g, fuel = g + 1 := ⟨fuel - 1, by omega⟩
        have := hK g (by omega)
        rw [drain, hn]
        simp only
        cases hd : drain (nextBogon db f0) g e1 with
        | error y =>
          rw [hd] at this
          exact fun h => this (by cases h; rfl)
        | ok r => exact fun h => by cases h

end Loc
