import Verif.Lemmas.Join
import Verif.Spec.Join
import Verif.Props.Tree
/-
Neighbouring halves are joined when a writer cleans up: C84.
-/
namespace Loc.Props
open Loc Spec

theorem holdsIPv4_of_around {n : Network} (hb : Block n) (h : Around (path n)) : HoldsIPv4 n := by
  obtain ⟨h1, h2⟩ := h
  refine ⟨?_, ip4 0 0 0 0, ?_, by decide, by decide⟩
  · cases e : n.family with
    | inet6 => rfl
    | inet => exact absurd (prefix_antisymm h1 ((block_v4_iff hb).mp e)) h2
  · rw [contains_iff_path hb]
    have : bits (ip4 0 0 0 0) = v4path ++ List.replicate 32 false := by decide +kernel
    rw [this]
    exact h1.trans (List.prefix_append _ _)

/-- A network that comes out of merging has one of the networks before inside it. -/
theorem MergeStar.below {f g : PathMap} (a : MergeStar f g) {u : List Bool} {n : Network} (h : g u = some n) :
    ∃ v k, u <+: v ∧ f v = some k := by
  induction a with
  | refl => exact ⟨u, n, List.prefix_refl _, h⟩
  | head h1 _ ih =>
    obtain ⟨v, k, hv, hk⟩ := ih h
    obtain ⟨w, n0, n1, m, -, -, a3, -, -, -, -, -, -, a7⟩ := h1
    rw [a7] at hk
    split at hk
    · rename_i e
      subst e
      exact ⟨v ++ [false], n0, hv.trans (List.prefix_append _ _), a3⟩
    · split at hk
      · cases hk
      · exact ⟨v, k, hv, hk⟩

/-- C84, proved part: after a clean-up two networks of one family with the same properties are the halves of a block
    only if a network of exactly that block had been added.

    Assumed: no IPv6 network with IPv4 addresses in it was added, networks without a country have clear country
    bytes, and `reread`, what the code reads from a network it may have freed, is the prefix of that network.
    Missing from the full claim `AllJoined`: the block that was added may have been joined with its own neighbour
    since, and is free then.  Each assumption is necessary, see the theorems below. -/
theorem cleanup_joins_partial (ctz0 : Nat) (h0 : 8 ≤ ctz0) {t t' : Tree} (h : Reach ctz0 t)
    (hc : treeCleanup ctz0 netPrefix t = .ok t') (hclear : ∀ n ∈ t.networks, n.cc0 = 0 → n.cc1 = 0)
    (hv : ∀ n ∈ t.networks, ¬ HoldsIPv4 n) {a b m : Network} (ha : a ∈ t'.networks) (hb : b ∈ t'.networks)
    (hh : AreHalves a b m) (hf : a.family = b.family) (hp : props a = props b) :
    ∃ k ∈ t.networks, SameBlock k m := by
  obtain ⟨hwf, hcc⟩ := reach_wf ctz0 h0 h
  obtain ⟨hwf', hcc'⟩ := reach_wf ctz0 h0 (Reach.cleanup h hc)
  obtain ⟨t1, t2, t3, e1, -, hm, e3, w1, w3, hsub, -, -, -, hstar, -⟩ := treeCleanup_spec ctz0 h0 netPrefix hwf
  rw [hc] at e1; cases e1
  have hclear' : ∀ n ∈ t'.networks, n.cc0 = 0 → n.cc1 = 0 := by
    intro j hj
    obtain ⟨u, hu⟩ := (mem_networks _ _).mp hj
    obtain ⟨v, i, hi, hr⟩ := hstar.rawMem hu
    rcases hsub v with e | e
    · have := hclear i ((mem_networks _ _).mpr ⟨v, by rw [← e]; exact hi⟩)
      unfold raw at hr
      simp only [Prod.mk.injEq] at hr
      rw [← hr.1, ← hr.2.1]; exact this
    · rw [e] at hi; cases hi
  have hout : ∀ u, Around u → look t1 u = none := by
    intro u hu
    rcases hsub u with e | e
    · rw [e]
      cases hl : look t u with
      | none => rfl
      | some n =>
        obtain ⟨b1, b2⟩ := look_block hwf hl
        exact absurd (holdsIPv4_of_around b1 (by rw [b2]; exact hu)) (hv n ((mem_networks _ _).mpr ⟨u, hl⟩))
    · exact e
  obtain ⟨j1, j2⟩ := treeMerge_joins ctz0 h0 w1 hout hm
  obtain ⟨w2, -⟩ : WF t2 ∧ True := by
    obtain ⟨t2', b1, b2, -⟩ := treeMerge_spec ctz0 h0 netPrefix w1
    rw [hm] at b1; cases b1
    exact ⟨b2, trivial⟩
  have hlk : look t' = look t2 := by rw [e3]; exact funext (treePrune_spec w2).2.1
  obtain ⟨ba, la⟩ := (mem_networks_wf hwf').mp ha
  obtain ⟨bb, lb⟩ := (mem_networks_wf hwf').mp hb
  obtain ⟨p1, p2⟩ := halvesOf_path ba bb hh
  have hraw := sameRaw_iff.mpr (raw_of_props (hcc' a ha) (hcc' b hb) (hclear' a ha) (hclear' b hb) hp)
  rw [hlk, p1] at la
  rw [hlk, p2] at lb
  have hu : ¬ unsplittable (path m) := by
    rintro (hu | hu)
    · have : Around (path m ++ [false]) := by
        rw [hu]
        constructor
        · decide
        · decide
      rw [j1 _ this] at la; cases la
    · have v1 : ¬ v4path <+: path a := by rw [p1, hu]; decide
      have v2 : v4path <+: path b := by rw [p2, hu]; decide
      rw [← block_v4_iff ba, hf, block_v4_iff bb] at v1
      exact v1 v2
  have hT := j2 _ a b la lb hu hraw
  rcases hsub (path m) with e | e
  · rw [e] at hT
    cases hl : look t (path m) with
    | none => exact absurd hl hT
    | some k =>
      obtain ⟨b1, b2⟩ := look_block hwf hl
      exact ⟨k, (mem_networks _ _).mpr ⟨_, hl⟩, (sameBlock_iff_path b1 hh.1).mpr b2⟩
  · exact absurd e hT

/-- If no network added lies inside another one, then everything that can be joined is joined. -/
theorem cleanup_joins_flat (ctz0 : Nat) (h0 : 8 ≤ ctz0) {t t' : Tree} (h : Reach ctz0 t)
    (hc : treeCleanup ctz0 netPrefix t = .ok t') (hclear : ∀ n ∈ t.networks, n.cc0 = 0 → n.cc1 = 0)
    (hv : ∀ n ∈ t.networks, ¬ HoldsIPv4 n) (hflat : Flat t.networks) : AllJoined t'.networks := by
  intro a b m ha hb hh hf hp
  exfalso
  obtain ⟨k, hk, hkm⟩ := cleanup_joins_partial ctz0 h0 h hc hclear hv ha hb hh hf hp
  obtain ⟨hwf, -⟩ := reach_wf ctz0 h0 h
  obtain ⟨hwf', -⟩ := reach_wf ctz0 h0 (Reach.cleanup h hc)
  obtain ⟨t1, t2, t3, e1, -, -, -, w1, w3, hsub, -, -, -, hstar, -⟩ := treeCleanup_spec ctz0 h0 netPrefix hwf
  rw [hc] at e1; cases e1
  obtain ⟨ba, la⟩ := (mem_networks_wf hwf').mp ha
  obtain ⟨bb, lb⟩ := (mem_networks_wf hwf').mp hb
  obtain ⟨p1, -⟩ := halvesOf_path ba bb hh
  obtain ⟨v, i, hv1, hv2⟩ := MergeStar.below hstar la
  have hi : look t v = some i := by
    rcases hsub v with e | e
    · rw [← e]; exact hv2
    · rw [e] at hv2; cases hv2
  obtain ⟨bi, pi⟩ := look_block hwf hi
  obtain ⟨bk, -⟩ := (mem_networks_wf hwf).mp hk
  have hpk : path k = path m := (sameBlock_iff_path bk hh.1).mp hkm
  have hpre : path k <+: path i := by
    rw [hpk, pi]
    exact (by rw [p1]; exact List.prefix_append _ _ : path m <+: path a).trans hv1
  have := hflat i ((mem_networks _ _).mpr ⟨v, hi⟩) k hk ((path_prefix_iff bk bi).mp hpre)
  have e := (sameBlock_iff_path bi bk).mp this
  rw [pi, hpk] at e
  have l := hv1.length_le
  rw [e, p1] at l
  simp at l

/-! ### the assumptions are necessary -/

theorem unjoined {l : List Network} {a b m : Network} (ha : a ∈ l) (hb : b ∈ l) (ba : Block a) (bb : Block b)
    (bm : Block m) (e1 : a.pfx = m.pfx + 1) (e2 : b.pfx = m.pfx + 1) (s1 : isSubnet m a = true)
    (s2 : isSubnet m b = true) (hlt : value a.first < value b.first) (hf : a.family = b.family)
    (hp : props a = props b) (hfree : ∀ k ∈ l, ¬ SameBlock k m) : ¬ AllJoined l := by
  intro h
  obtain ⟨k, hk, hs⟩ := h a b m ha hb
    ⟨bm, e1, e2, (is_subnet_iff bm ba).mp s1, (is_subnet_iff bm bb).mp s2, .inl hlt⟩ hf hp
  exact hfree k hk hs

/-- 10.0.0.0/9 of AS 1 -/
def j9 : Network := { mk4 (ip4 10 0 0 0) (ip4 10 127 255 255) 9 with asn := 1 }
/-- 10.128.0.0/9 of AS 1 -/
def j9' : Network := { mk4 (ip4 10 128 0 0) (ip4 10 255 255 255) 9 with asn := 1 }
/-- 10.0.0.0/8 of AS 1 -/
def j8 : Network := { net10_8p with asn := 1 }
/-- 10.0.0.0/10 -/
def j10 : Network := mk4 (ip4 10 0 0 0) (ip4 10 63 255 255) 10
/-- 10.64.0.0/10 -/
def j10' : Network := mk4 (ip4 10 64 0 0) (ip4 10 127 255 255) 10
/-- 10.0.0.0/11 -/
def j11 : Network := mk4 (ip4 10 0 0 0) (ip4 10 31 255 255) 11
/-- 10.32.0.0/11 -/
def j11' : Network := mk4 (ip4 10 32 0 0) (ip4 10 63 255 255) 11
/-- 0.0.0.0/0 -/
def j0 : Network := mk4 (ip4 0 0 0 0) (ip4 255 255 255 255) 0
/-- ::/8 of AS 1 -/
def jz8 : Network :=
  { j0 with family := .inet6, pfx := 8, asn := 1, first := .replicate 16 0
            last := #v[0,255,255,255, 255,255,255,255, 255,255,255,255, 255,255,255,255] }
/-- 100::/8 of AS 1 -/
def jz8' : Network :=
  { jz8 with first := #v[1,0,0,0, 0,0,0,0, 0,0,0,0, 0,0,0,0]
             last := #v[1,255,255,255, 255,255,255,255, 255,255,255,255, 255,255,255,255] }
/-- ::/7 of AS 1 -/
def jz7 : Network := { jz8 with pfx := 7, last := jz8'.last }

theorem j9_built (c : Nat) : Built c j9 :=
  .asn 1 (.new (show newNetwork (ip4 10 0 0 0) 9 = .ok { j9 with asn := 0 } by decide +kernel))
theorem j9'_built (c : Nat) : Built c j9' :=
  .asn 1 (.new (show newNetwork (ip4 10 128 0 0) 9 = .ok { j9' with asn := 0 } by decide +kernel))
theorem j10_built (c : Nat) : Built c j10 := .new (show newNetwork (ip4 10 0 0 0) 10 = .ok j10 by decide +kernel)
theorem j10'_built (c : Nat) : Built c j10' := .new (show newNetwork (ip4 10 64 0 0) 10 = .ok j10' by decide +kernel)
theorem j11_built (c : Nat) : Built c j11 := .new (show newNetwork (ip4 10 0 0 0) 11 = .ok j11 by decide +kernel)
theorem j11'_built (c : Nat) : Built c j11' := .new (show newNetwork (ip4 10 32 0 0) 11 = .ok j11' by decide +kernel)
theorem j0_built (c : Nat) : Built c j0 := .new (show newNetwork (ip4 0 0 0 0) 0 = .ok j0 by decide +kernel)
theorem jz8_built (c : Nat) : Built c jz8 :=
  .asn 1 (.new (show newNetwork jz8.first 8 = .ok { jz8 with asn := 0 } by decide +kernel))
theorem jz8'_built (c : Nat) : Built c jz8' :=
  .asn 1 (.new (show newNetwork jz8'.first 8 = .ok { jz8' with asn := 0 } by decide +kernel))

/-- The tree after a clean-up. -/
def tidied (reread : Network → Nat) (t : Tree) : Tree :=
  match treeCleanup 32 reread t with | .ok t => t | .error _ => .nil

/-- The code violates the full claim: when 10.0.0.0/10 and 10.64.0.0/10 are looked at, their union 10.0.0.0/9 is
    taken, and then it is itself joined to 10.0.0.0/8. -/
theorem cleanup_unjoined_violated : ∃ t t', Reach 32 t ∧ treeCleanup 32 netPrefix t = .ok t' ∧
    t'.networks = [j8, j10, j10'] ∧ ¬ AllJoined t'.networks := by
  refine ⟨addNew [j9, j10, j10', j9'], tidied netPrefix (addNew [j9, j10, j10', j9']),
    addAll_reach (l := [j9, j10, j10', j9']) ?_ .new (by decide +kernel), by decide +kernel, by decide +kernel,
    unjoined (a := j10) (b := j10') (m := j9) (by decide +kernel) (by decide +kernel) (by decide +kernel)
      (by decide +kernel) (by decide +kernel) rfl rfl (by decide +kernel) (by decide +kernel) (by decide +kernel)
      rfl (by decide +kernel) (by decide +kernel)⟩
  intro n hn
  simp only [List.mem_cons, List.not_mem_nil, or_false] at hn
  rcases hn with rfl | rfl | rfl | rfl
  · exact j9_built _
  · exact j10_built _
  · exact j10'_built _
  · exact j9'_built _

/-- The code violates the claim without the assumption on IPv6 networks: between ::/8 and 100::/8 an IPv4 network
    is met, and 8 is longer than its prefix 0. -/
theorem cleanup_unjoined_violated_v6 : ∃ t t', Reach 32 t ∧ treeCleanup 32 netPrefix t = .ok t' ∧
    t'.networks = [jz8, j0, jz8'] ∧ ¬ AllJoined t'.networks ∧ ¬ ∃ k ∈ t.networks, SameBlock k jz7 := by
  refine ⟨addNew [jz8, j0, jz8'], tidied netPrefix (addNew [jz8, j0, jz8']),
    addAll_reach (l := [jz8, j0, jz8']) ?_ .new (by decide +kernel), by decide +kernel, by decide +kernel,
    unjoined (a := jz8) (b := jz8') (m := jz7) (by decide +kernel) (by decide +kernel) (by decide +kernel)
      (by decide +kernel) (by decide +kernel) rfl rfl (by decide +kernel) (by decide +kernel) (by decide +kernel)
      rfl (by decide +kernel) (by decide +kernel), by decide +kernel⟩
  intro n hn
  simp only [List.mem_cons, List.not_mem_nil, or_false] at hn
  rcases hn with rfl | rfl | rfl
  · exact jz8_built _
  · exact j0_built _
  · exact jz8'_built _

/-- The code violates the claim if the freed memory reads as 0: 10.0.0.0/9 and 10.128.0.0/9 are not joined, because
    joining 10.0.0.0/11 and 10.32.0.0/11 in between cleared the list. -/
theorem cleanup_unjoined_violated_freed : ∃ t t', Reach 32 t ∧ treeCleanup 32 (fun _ => 0) t = .ok t' ∧
    t'.networks = [j9, j10, j9'] ∧ ¬ AllJoined t'.networks ∧ ¬ ∃ k ∈ t.networks, SameBlock k j8 := by
  refine ⟨addNew [j9, j11, j11', j9'], tidied (fun _ => 0) (addNew [j9, j11, j11', j9']),
    addAll_reach (l := [j9, j11, j11', j9']) ?_ .new (by decide +kernel), by decide +kernel, by decide +kernel,
    unjoined (a := j9) (b := j9') (m := j8) (by decide +kernel) (by decide +kernel) (by decide +kernel)
      (by decide +kernel) (by decide +kernel) rfl rfl (by decide +kernel) (by decide +kernel) (by decide +kernel)
      rfl (by decide +kernel) (by decide +kernel), by decide +kernel⟩
  intro n hn
  simp only [List.mem_cons, List.not_mem_nil, or_false] at hn
  rcases hn with rfl | rfl | rfl | rfl
  · exact j9_built _
  · exact j11_built _
  · exact j11'_built _
  · exact j9'_built _

/-- A non-trivial case meeting the assumptions: with the prefix read correctly the same networks become 10.0.0.0/8
    of AS 1 and 10.0.0.0/10. -/
example : Reach 32 (addNew [j9, j11, j11', j9']) ∧
    treeCleanup 32 netPrefix (addNew [j9, j11, j11', j9']) = .ok (tidied netPrefix (addNew [j9, j11, j11', j9'])) ∧
    (tidied netPrefix (addNew [j9, j11, j11', j9'])).networks = [j8, j10] ∧
    (∀ n ∈ (addNew [j9, j11, j11', j9']).networks, n.cc0 = 0 → n.cc1 = 0) ∧
    ∀ n ∈ (addNew [j9, j11, j11', j9']).networks, ¬ HoldsIPv4 n := by
  refine ⟨addAll_reach (l := [j9, j11, j11', j9']) ?_ .new (by decide +kernel), by decide +kernel, by decide +kernel,
    by decide +kernel, ?_⟩
  · intro n hn
    simp only [List.mem_cons, List.not_mem_nil, or_false] at hn
    rcases hn with rfl | rfl | rfl | rfl
    · exact j9_built _
    · exact j11_built _
    · exact j11'_built _
    · exact j9'_built _
  · have hall : ∀ n ∈ (addNew [j9, j11, j11', j9']).networks, n.family = .inet := by decide +kernel
    intro n hn h
    have h1 := h.1
    rw [hall n hn] at h1
    cases h1

/-- A case of the partial theorem where two halves are left, since their union had been added: the networks of
    `cleanup_unjoined_violated`. -/
example : (tidied netPrefix (addNew [j9, j10, j10', j9'])).networks = [j8, j10, j10'] ∧
    j9 ∈ (addNew [j9, j10, j10', j9']).networks ∧ j10 ∈ (tidied netPrefix (addNew [j9, j10, j10', j9'])).networks := by
  decide +kernel

/-- 10.128.0.0/9 -/
def j9p : Network := { j9' with asn := 0 }

/-- Networks of which none lies inside another. -/
example : Flat [j10, j10', j9p] ∧ (tidied netPrefix (addNew [j10, j10', j9p])).networks = [net10_8p] := by
  refine ⟨?_, by decide +kernel⟩
  have h : ∀ a ∈ [j10, j10', j9p], ∀ b ∈ [j10, j10', j9p], isSubnet b a = true → SameBlock a b := by decide +kernel
  have hb : ∀ a ∈ [j10, j10', j9p], Block a := by decide +kernel
  intro a ha b hb' hi
  exact h a ha b hb' ((is_subnet_iff (hb b hb') (hb a ha)).mpr hi)

end Loc.Props
