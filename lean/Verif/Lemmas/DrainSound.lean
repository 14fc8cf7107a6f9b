import Verif.Lemmas.Drain
/-
Draining a network enumerator of any database that holds a tree.
-/
namespace Loc
open Spec

/-- The networks come in order, until the search ends, the stack overflows or a network cannot be made. -/
theorem drain_sound {db : Db} {recs : List NodeRec} {nets : List Network} {junk : Nat → Byte × Byte × Byte × Byte} (enc : Enc db recs nets junk)
    (f : Filter) : ∀ (fuel : Nat) (P : List Wait) (e : NetEnum), DInv db recs nets e P → e.stack = [] → e.filter = f → (toCome P).length < fuel →
    (Over P ∧ drain (nextNetwork db) fuel e = .error .oob) ∨
    (∃ e', drain (nextNetwork db) fuel e = .ok (((toCome P).map readBack).filter (matchNetwork f), true, e') ∧ ¬ Over P) ∨
    (∃ e' pre n post, drain (nextNetwork db) fuel e = .ok ((pre.map readBack).filter (matchNetwork f), false, e') ∧
      toCome P = pre ++ n :: post ∧ Stale n) := by
  intro fuel
  induction fuel with
  | zero => intro P e _ _ _ h; omega
  | succ fuel ih =>
    intro P e hi hs hf hl
    have hnext : nextNetwork db e = dfsLoop db true (dfsFuel db e) e := by
      unfold nextNetwork nextNetworkRaw
      rw [hs]
      show dfsLoop db true (dfsFuel db e) { e with stack := [] } = _
      rw [← hs]
    obtain ⟨q, q1, q2⟩ := dfs_run enc true (matchNetwork f) (dfsFuel db e) _ _ hi (by unfold work dfsFuel; omega) (fun n => by rw [hf]; simp)
    rw [← hnext] at q2
    have hq : (q.map readBack).filter (matchNetwork f) = [] := by
      rw [List.filter_eq_nil_iff]
      intro m hm
      obtain ⟨k, hk, rfl⟩ := List.mem_map.mp hm
      rw [q1 k hk]; simp
    rcases q2 with ⟨f', r1, r2, r3, r4, r5, r6, r7⟩ | ⟨n, f', P', r1, r2, r3, r4, r5, r6, r7⟩ | ⟨r1, r2⟩ | ⟨n, f', P', r1, r2, r3, r4, r5, r6, r7⟩
    · right; left
      exact ⟨f', by rw [drain, r1, r2, hq], r7⟩
    · obtain ⟨s1, s2, s3, s4⟩ := r6
      rcases ih P' f' r5 (s2.trans hs) (s1.trans hf) (by rw [r3] at hl; simp at hl; omega) with
        ⟨h7, h8⟩ | ⟨e2, h7, h8⟩ | ⟨e2, pre, m, post, h7, h8, h9⟩
      · exact .inl ⟨r7.mp h7, by rw [drain, r1]; simp only; rw [h8]⟩
      · refine .inr (.inl ⟨e2, ?_, fun ho => h8 (r7.mpr ho)⟩)
        rw [drain, r1]
        simp only
        rw [h7, r3, List.map_append, List.filter_append, hq, List.map_cons, List.filter_cons_of_pos r2]
        rfl
      · refine .inr (.inr ⟨e2, q ++ n :: pre, m, post, ?_, by rw [r3, h8]; simp, h9⟩)
        rw [drain, r1]
        simp only
        rw [h7, List.map_append, List.filter_append, hq, List.map_cons, List.filter_cons_of_pos r2]
        rfl
    · exact .inl ⟨r1, by rw [drain, r2]⟩
    · right; right
      exact ⟨f', q, n, toCome P', by rw [drain, r1, hq], r2, r3⟩

end Loc
