import Verif.Lemmas.Terminate
/-
Draining a network enumerator of a database that holds a tree.
-/
namespace Loc
open Spec

/-- The state of an enumerator of a database that holds a tree: `l` is still to come. -/
def EnumAt (db : Db) (e : NetEnum) (l : List Network) : Prop :=
  ∃ recs nets junk P, Enc db recs nets junk ∧ DInv db recs nets e P ∧ ¬ Over P ∧ (∀ n ∈ toCome P, ¬ Stale n) ∧ l = e.stack ++ (toCome P).map readBack

theorem popMatching_none {f : Filter} {filter : Bool} {l : NetList} (h : ∀ n ∈ l, (!filter || matchNetwork f n) = false) :
    popMatching f filter l = (none, []) := by
  induction l with
  | nil => rfl
  | cons m l ih =>
    unfold popMatching
    rw [if_neg (by rw [h m (List.mem_cons_self ..)]; simp)]
    exact ih fun n hn => h n (List.mem_cons_of_mem _ hn)

theorem popMatching_cases (f : Filter) (filter : Bool) (l : NetList) :
    (∃ pre n post, l = pre ++ n :: post ∧ (∀ m ∈ pre, (!filter || matchNetwork f m) = false) ∧ (!filter || matchNetwork f n) = true ∧
      popMatching f filter l = (some n, post)) ∨
    ((∀ m ∈ l, (!filter || matchNetwork f m) = false) ∧ popMatching f filter l = (none, [])) := by
  induction l with
  | nil => exact .inr ⟨by simp, rfl⟩
  | cons m l ih =>
    cases hm : (!filter || matchNetwork f m) with
    | true => exact .inl ⟨[], m, l, rfl, by simp, hm, by rw [popMatching, hm, if_pos rfl]⟩
    | false =>
      have hu : popMatching f filter (m :: l) = popMatching f filter l := by rw [popMatching, hm, if_neg (by simp)]
      rcases ih with ⟨pre, n, post, rfl, h2, h3, h4⟩ | ⟨h1, h2⟩
      · refine .inl ⟨m :: pre, n, post, rfl, ?_, h3, by rw [hu, h4]⟩
        intro x hx
        rcases List.mem_cons.mp hx with rfl | hx
        · exact hm
        · exact h2 x hx
      · refine .inr ⟨?_, by rw [hu, h2]⟩
        intro x hx
        rcases List.mem_cons.mp hx with rfl | hx
        · exact hm
        · exact h1 x hx

/-- The network enumerator takes the first network that matches from what is to come. -/
theorem next_enumAt {db : Db} {e : NetEnum} {l : List Network} (h : EnumAt db e l) (filter : Bool) :
    (∃ pre n post e', l = pre ++ n :: post ∧ (∀ m ∈ pre, (!filter || matchNetwork e.filter m) = false) ∧
      (!filter || matchNetwork e.filter n) = true ∧ nextNetworkRaw db filter e = .ok (.item n, e') ∧ EnumAt db e' post ∧
      e'.filter = e.filter ∧ e'.gap6 = e.gap6 ∧ e'.gap4 = e.gap4) ∨
    (∃ e', (∀ m ∈ l, (!filter || matchNetwork e.filter m) = false) ∧ nextNetworkRaw db filter e = .ok (.done, e') ∧ EnumAt db e' [] ∧
      e'.filter = e.filter ∧ e'.gap6 = e.gap6 ∧ e'.gap4 = e.gap4) := by
  obtain ⟨recs, nets, junk, P, enc, hi, hov, hst, rfl⟩ := h
  unfold nextNetworkRaw
  rcases popMatching_cases e.filter filter e.stack with ⟨pre, n, post, h1, h2, h3, h4⟩ | ⟨h1, h2⟩
  · left
    rw [h4]
    refine ⟨pre, n, post ++ (toCome P).map readBack, _, by rw [h1]; simp, h2, h3, rfl, ⟨recs, nets, junk, P, enc, ?_, hov, hst, rfl⟩, rfl, rfl, rfl⟩
    exact ⟨hi.stk, hi.nodup, hi.disj, hi.addr, hi.mono, hi.tail, hi.zero, hi.good, hi.country, hi.len, hi.visited, hi.range⟩
  · rw [h2]
    simp only
    have hi' : DInv db recs nets { e with stack := [] } P :=
      ⟨hi.stk, hi.nodup, hi.disj, hi.addr, hi.mono, hi.tail, hi.zero, hi.good, hi.country, hi.len, hi.visited, hi.range⟩
    obtain ⟨q, q1, q2⟩ := dfs_run enc filter (fun n => !filter || matchNetwork e.filter n) (dfsFuel db e) _ _ hi'
      (by unfold work dfsFuel; simp only; omega) (fun _ => rfl)
    have hsel : ∀ m ∈ e.stack ++ q.map readBack, (!filter || matchNetwork e.filter m) = false := by
      intro m hm
      rcases List.mem_append.mp hm with hm | hm
      · exact h1 m hm
      · obtain ⟨k, hk, rfl⟩ := List.mem_map.mp hm
        exact q1 k hk
    rcases q2 with ⟨f, r1, r2, r3, r4, r5, r6, r7⟩ | ⟨n, f, P', r1, r2, r3, r4, r5, r6, r7⟩ | ⟨r1, r2⟩ | ⟨n, f, P', r1, r2, r3, r4, r5, r6, r7⟩
    · right
      obtain ⟨s1, s2, s3, s4⟩ := r6
      refine ⟨f, by rw [r2]; exact hsel, r1, ⟨recs, nets, junk, [], enc, r4, ?_, ?_, ?_⟩, s1, s3, s4⟩
      · rintro ⟨p, hp, -⟩; cases hp
      · intro n hn; cases hn
      · rw [s2]; rfl
    · left
      obtain ⟨s1, s2, s3, s4⟩ := r6
      refine ⟨_, readBack n, (toCome P').map readBack, f, ?_, hsel, r2, r1, ⟨recs, nets, junk, P', enc, r5, fun h => hov (r7.mp h), ?_, ?_⟩, s1, s3, s4⟩
      · rw [r3]; simp
      · intro m hm
        exact hst m (by rw [r3]; simp [hm])
      · rw [s2]; rfl
    · exact absurd r1 hov
    · exact absurd r3 (hst n (by rw [r2]; simp))

theorem drain_enumAt {db : Db} (f : Filter) : ∀ (fuel : Nat) (l : List Network) (e : NetEnum), EnumAt db e l → e.filter = f → l.length < fuel →
    ∃ e', drain (nextNetwork db) fuel e = .ok (l.filter (matchNetwork f), true, e') ∧ EnumAt db e' [] := by
  intro fuel
  induction fuel with
  | zero => intro l e _ _ h; omega
  | succ fuel ih =>
    intro l e he hf hl
    have hsimp : ∀ n, (!true || matchNetwork f n) = matchNetwork f n := fun n => by simp
    rcases next_enumAt he true with ⟨pre, n, post, e', rfl, h2, h3, h4, h5, h6, -⟩ | ⟨e', h1, h2, h3, -⟩
    · rw [hf] at h2 h3 h6
      simp only [hsimp] at h2 h3
      obtain ⟨e2, h7, h8⟩ := ih post e' h5 h6 (by simp at hl; omega)
      refine ⟨e2, ?_, h8⟩
      rw [drain, nextNetwork, h4]
      simp only
      rw [h7, List.filter_append, List.filter_eq_nil_iff (l := pre) |>.mpr (fun m hm => by rw [h2 m hm]; simp), List.filter_cons_of_pos h3]
      rfl
    · rw [hf] at h1
      simp only [hsimp] at h1
      refine ⟨e', ?_, h3⟩
      rw [drain, nextNetwork, h2]
      simp only
      rw [List.filter_eq_nil_iff.mpr (fun m hm => by rw [h1 m hm]; simp)]

/-- Draining, whether or not networks are rejected and whether or not the stack overflows. -/
theorem drain_walk {db : Db} {recs : List NodeRec} {nets : List Network} {junk : Nat → Byte × Byte × Byte × Byte} (enc : Enc db recs nets junk)
    (f : Filter) : ∀ (fuel : Nat) (P : List Wait) (e : NetEnum), DInv db recs nets e P → e.stack = [] → e.filter = f → (toCome P).length < fuel →
    (∃ e', drain (nextNetwork db) fuel e = .ok ((walkAll (matchNetwork f) P e.address).1, (walkAll (matchNetwork f) P e.address).2.isSome, e') ∧
      ((walkAll (matchNetwork f) P e.address).2.isSome = true → ¬ Over P) ∧
      ((walkAll (matchNetwork f) P e.address).2.isSome = false → ∃ n ∈ toCome P, Stale n)) ∨
    (Over P ∧ drain (nextNetwork db) fuel e = .error .oob) := by
  intro fuel
  induction fuel with
  | zero => intro P e _ _ _ h; omega
  | succ fuel ih =>
    intro P e hi hs hf hl
    have hnext : nextNetwork db e = dfsLoop db true (dfsFuel db e) e := by
      unfold nextNetwork nextNetworkRaw
      rw [hs]
      show dfsLoop db true (dfsFuel db e) { e with stack := [] } = _
      rw [← hs]
    obtain ⟨q, q1, q2⟩ := dfs_run enc true (matchNetwork f) (dfsFuel db e) _ _ hi (by unfold work dfsFuel; omega) (fun n => by rw [hf]; simp)
    rw [← hnext] at q2
    rcases q2 with ⟨f', r1, r2, r3, r4, r5, r6, r7⟩ | ⟨n, f', P', r1, r2, r3, r4, r5, r6, r7⟩ | ⟨r1, r2⟩ | ⟨n, f', P', r1, r2, r3, r4, r5, r6, r7⟩
    · left
      exact ⟨f', by rw [drain, r1, r3]; rfl, fun _ => r7, by rw [r3]; intro h; cases h⟩
    · obtain ⟨s1, s2, s3, s4⟩ := r6
      rcases ih P' f' r5 (s2.trans hs) (s1.trans hf) (by rw [r3] at hl; simp at hl; omega) with ⟨e2, h7, h8, h9⟩ | ⟨h7, h8⟩
      · refine .inl ⟨e2, by rw [drain, r1, r4]; simp only; rw [h7], ?_⟩
        rw [r4, r3]
        refine ⟨fun h => fun ho => h8 h (r7.mpr ho), fun h => ?_⟩
        obtain ⟨m, hm, hms⟩ := h9 h
        exact ⟨m, by simp [hm], hms⟩
      · exact .inr ⟨r7.mp h7, by rw [drain, r1]; simp only; rw [h8]⟩
    · exact .inr ⟨r1, by rw [drain, r2]⟩
    · left
      exact ⟨f', by rw [drain, r1, r4]; rfl, by rw [r4]; exact ⟨fun h => (by cases h), fun _ => ⟨n, by rw [r2]; simp, r3⟩⟩⟩

/-- The new enumerator. -/
theorem enumNew_inv {db : Db} {t : Tree} (h : Holds db t) (f : Filter) :
    ∃ recs nets junk, Enc db recs nets junk ∧ DInv db recs nets (enumNew f) [⟨0, [], t, 0⟩] := by
  obtain ⟨recs, nets, junk, h1, h2, h3, h4, h5, h6, h7, h8, h9, h10⟩ := h.recs
  refine ⟨recs, nets, junk, ⟨h3, h5, h7, h9, h10⟩, ?_⟩
  have hnd : (ixs (fun i => recs[i]?) 0 t).Nodup := by
    rw [← ixs_mono (N := fun i => nets[i]?) (R' := nodeAt db) (fun i r hr => by unfold nodeAt; rw [h9 i r hr]) t 0 h1]
    exact h.inj
  refine ⟨.new h1 rfl rfl .nil, ?_, ?_, ?_, ?_, ?_, ?_, ?_, ?_, ?_, List.nodup_nil, ?_⟩
  · simpa [allIxs] using hnd
  · intro i _ hi; cases hi
  · intro p hp
    rw [List.mem_singleton] at hp
    subst hp
    exact List.nil_prefix
  · simp
  · intro p hp; cases hp
  · intro p hp _
    show bits (Vector.replicate 16 0) = _
    decide
  · intro p hp
    rw [List.mem_singleton] at hp
    subst hp
    exact h.wf.1
  · intro n hn
    exact h.country n (by simpa [toCome] using hn)
  · simp [enumNew]
  · intro i hi; cases hi

theorem enumNew_at {db : Db} {t : Tree} (h : Holds db t) (f : Filter) (ho : need t ≤ 255) (hs : ∀ n ∈ t.networks, ¬ Stale n) :
    EnumAt db (enumNew f) (t.networks.map readBack) := by
  obtain ⟨recs, nets, junk, h1, h2⟩ := enumNew_inv h f
  refine ⟨recs, nets, junk, _, h1, h2, ?_, ?_, by simp [toCome, enumNew]⟩
  · rintro ⟨p, hp, hlt⟩
    rw [List.mem_singleton] at hp
    subst hp
    simp only at hlt
    omega
  · intro n hn
    exact hs n (by simpa [toCome] using hn)

end Loc
