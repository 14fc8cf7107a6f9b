import Verif.Lemmas.DrainSound
import Verif.Props.Networks
/-
C16, C17: what an enumeration of any written database returns.
-/
namespace Loc.Props
open Loc Loc.Spec

/-- For every written database and every filter: an enumeration goes through the stored networks in ascending order
    and returns those the filter asks for, exactly as they were stored.  It ends behind the last one, or with an error at
    a network of the kind `AroundV4`, or it writes outside of its stack, which needs networks that are `TooDeep`.  So
    whenever it ends without an error nothing is missing. -/
theorem network_enumeration_sound {K : Type} {ctz0 : Nat} (h0 : 8 ≤ ctz0) {key1 key2 : Option K} {ops : List (WOp K)} {e : WEnv K}
    {w : Writer K} {f : Bytes} (h : Written ctz0 key1 key2 ops e w f) {db : Db} (ho : dbOpen f = .ok db)
    {flt : Filter} (hflt : FilterOk flt) {fuel : Nat} (hf : w.networks.networks.length < fuel) :
    (TooDeep (· ∈ w.networks.networks) ∧ drain (nextNetwork db) fuel (enumNew flt) = .error .oob) ∨
    ∃ found ended s, drain (nextNetwork db) fuel (enumNew flt) = .ok (found, ended, s) ∧
      ∃ seen rest l, w.networks.networks = seen ++ rest ∧ List.Forall₂ ReadFrom seen l ∧ Ascending l ∧
        found.Sublist l ∧ (∀ m, m ∈ found ↔ m ∈ l ∧ Wanted flt m) ∧
        (ended = true → rest = []) ∧ (ended = false → ∃ n, rest.head? = some n ∧ AroundV4 n) := by
  obtain ⟨db', ho', hh⟩ := written_holds h0 h
  rw [ho] at ho'
  cases ho'
  obtain ⟨recs, nets, junk, enc, hi⟩ := enumNew_inv hh flt
  have hasc := networks_ascending hh.wf.1
  have key : ∀ seen rest, w.networks.networks = seen ++ rest → List.Forall₂ ReadFrom seen (seen.map readBack) ∧
      Ascending (seen.map readBack) ∧ ((seen.map readBack).filter (matchNetwork flt)).Sublist (seen.map readBack) ∧
      ∀ m, m ∈ (seen.map readBack).filter (matchNetwork flt) ↔ m ∈ seen.map readBack ∧ Wanted flt m := by
    intro seen rest hsr
    refine ⟨?_, ?_, List.filter_sublist, ?_⟩
    · clear hsr
      induction seen with
      | nil => exact .nil
      | cons n l ih => exact .cons (readFrom_readBack n) ih
    · unfold Ascending
      rw [List.pairwise_map]
      rw [hsr] at hasc
      exact (List.pairwise_append.mp hasc).1
    · intro m
      rw [List.mem_filter]
      refine and_congr_right fun hm => ?_
      obtain ⟨n, hn, rfl⟩ := List.mem_map.mp hm
      have hn' : n ∈ w.networks.networks := by rw [hsr]; simp [hn]
      exact matchNetwork_iff hflt (readBack_block ((mem_networks_wf hh.wf).mp hn').1) (readBack_countryOk (hh.country n hn'))
  have htc : toCome [⟨0, [], w.networks, 0⟩] = w.networks.networks := by simp [toCome]
  rcases drain_sound enc flt fuel _ _ hi rfl rfl (by rw [htc]; exact hf) with ⟨hov, h1⟩ | ⟨s, h1, -⟩ | ⟨s, pre, n, post, h1, h2, h3⟩
  · left
    obtain ⟨p, hp, hov⟩ := hov
    rw [List.mem_singleton] at hp
    subst hp
    exact ⟨(tooDeep_iff hh.wf hh.pruned).mp (by simpa using hov), h1⟩
  · right
    rw [htc] at h1
    obtain ⟨k1, k2, k3, k4⟩ := key w.networks.networks [] (by simp)
    exact ⟨_, _, s, h1, w.networks.networks, [], _, by simp, k1, k2, k3, k4, fun _ => rfl, (fun h => by cases h)⟩
  · right
    rw [htc] at h2
    obtain ⟨k1, k2, k3, k4⟩ := key pre (n :: post) h2
    refine ⟨_, _, s, h1, pre, n :: post, _, h2, k1, k2, k3, k4, (fun h => by cases h), fun _ => ⟨n, rfl, ?_⟩⟩
    exact (stale_iff ((mem_networks_wf hh.wf).mp (by rw [h2]; simp)).1).mp h3

/-- A database which meets the hypotheses, with a network of the kind `AroundV4`: the enumeration ends at it with an
    error, having returned the one before it. -/
example : ∃ (w : Writer Unit) (f : Bytes) (db : Db), Written 32 none none aroundOps demoEnv w f ∧ dbOpen f = .ok db ∧ FilterOk noFilter ∧
    w.networks.networks = [net7fff] ++ [net8000] ∧ AroundV4 net8000 ∧
    ∃ s, drain (nextNetwork db) 3 (enumNew noFilter) = .ok ([net7fff], false, s) := by
  obtain ⟨w, f, db, h1, h2, h3, h4⟩ := network_enumeration_violated
  refine ⟨w, f, db, h1, h2, (fun l h => by cases h), h3, ?_, h4 3 (by decide)⟩
  rcases network_enumeration_sound (by decide) h1 h2 (flt := noFilter) (fun l h => by cases h) (fuel := 3) (by rw [h3]; decide) with
    ⟨-, h5⟩ | ⟨found, ended, s, h5, seen, rest, l, h6, h7, -, h8, -, h9, h10⟩
  · obtain ⟨s, h6⟩ := h4 3 (by decide)
    rw [h5] at h6; cases h6
  · obtain ⟨s', h11⟩ := h4 3 (by decide)
    rw [h5] at h11
    cases h11
    obtain ⟨n, hn, hv⟩ := h10 rfl
    rw [h3] at h6
    match seen, rest, hn with
    | [], _ :: _, hn =>
      cases h7
      cases h8
    | [a], b :: r, hn =>
      simp at h6 hn
      rw [h6.2.1, hn]; exact hv
    | a :: b :: r, c :: r', hn => simp at h6

end Loc.Props
