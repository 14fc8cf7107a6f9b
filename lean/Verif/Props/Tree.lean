import Verif.Lemmas.Clean
import Verif.Props.Network
/-
Properties of the collection of networks held by a writer: C09, C10, C11.
-/
namespace Loc.Props
open Loc Spec

/-- Every tree of a writer is well formed and holds valid networks. -/
theorem reach_wf (ctz0 : Nat) (h0 : 8 ≤ ctz0) {t : Tree} (h : Reach ctz0 t) :
    WF t ∧ ∀ n ∈ t.networks, CountryOk n := by
  induction h with
  | new =>
    refine ⟨⟨⟨by simp, by simp, by simp, trivial, trivial⟩, trivial⟩, ?_⟩
    intro n hn; simp [treeNew, Tree.fresh, Tree.networks] at hn
  | @add t t' n r _ hb ha ih =>
    obtain ⟨hwf, hcc⟩ := ih
    obtain ⟨hbn, hcn⟩ := built_ok ctz0 h0 hb
    obtain ⟨t2, w, -, h3⟩ := treeAdd_spec hwf hbn
    have ht : t' = t2 ∧ ∀ k ∈ t2.networks, k ∈ t.networks ∨ k = n := by
      rcases h3 with ⟨-, e, hl⟩ | ⟨m, -, e, hl⟩
      · rw [e] at ha; cases ha
        refine ⟨rfl, ?_⟩
        intro k hk
        obtain ⟨u, hu⟩ := (mem_networks _ _).mp hk
        rw [hl] at hu
        split at hu
        · cases hu; exact .inr rfl
        · exact .inl ((mem_networks _ _).mpr ⟨u, hu⟩)
      · rw [e] at ha; cases ha
        refine ⟨rfl, ?_⟩
        intro k hk
        obtain ⟨u, hu⟩ := (mem_networks _ _).mp hk
        rw [hl] at hu
        exact .inl ((mem_networks _ _).mpr ⟨u, hu⟩)
    obtain ⟨rfl, hm⟩ := ht
    refine ⟨w, fun k hk => ?_⟩
    rcases hm k hk with h' | rfl
    · exact hcc k h'
    · exact hcn
  | @change t n n' _ hb hs ih =>
    obtain ⟨hwf, hcc⟩ := ih
    obtain ⟨hbn, hcn⟩ := built_ok ctz0 h0 hb
    refine ⟨⟨good_replace hbn (fun hbn' => (sameBlock_iff_path hbn hbn').mp hs) hwf.good, ?_⟩, ?_⟩
    · have := hwf.alive
      cases t with
      | nil => exact this
      | node d net z o => cases d <;> exact this
    · intro k hk
      obtain ⟨u, hu⟩ := (mem_networks _ _).mp hk
      rw [look_replace] at hu
      cases e : look t u with
      | none => rw [e] at hu; cases hu
      | some j =>
        rw [e] at hu
        simp only [Option.map_some, Option.some.injEq] at hu
        subst hu
        split
        · exact hcn
        · exact hcc j ((mem_networks _ _).mpr ⟨u, e⟩)
  | @cleanup t t' reread _ hc ih =>
    obtain ⟨hwf, hcc⟩ := ih
    obtain ⟨t1, t2, t3, e1, -, -, -, w1, w3, hsub, -, -, -, hstar, -⟩ := treeCleanup_spec ctz0 h0 reread hwf
    rw [hc] at e1; cases e1
    refine ⟨w3, ?_⟩
    intro k hk
    obtain ⟨u, hu⟩ := (mem_networks _ _).mp hk
    obtain ⟨v, j, hj, hr⟩ := hstar.rawMem hu
    rcases hsub v with e | e
    · exact countryOk_raw hr.symm (hcc j ((mem_networks _ _).mpr ⟨v, by rw [← e]; exact hj⟩))
    · rw [e] at hj; cases hj

/-! ## C09 -/

/-- Adding a network to a writer, whatever happened before: if no network of the same block is
    stored, the call returns 0 and exactly this network is added; otherwise it returns `EBUSY` and
    the stored networks are unchanged. -/
theorem add_network_set (ctz0 : Nat) (h0 : 8 ≤ ctz0) {t : Tree} (h : Reach ctz0 t) {n : Network} (hn : Built ctz0 n) :
    ∃ r t', treeAdd t n = .ok (r, t') ∧
      ((¬ (∃ m ∈ t.networks, SameBlock m n) → r = 0 ∧ ∀ k, k ∈ t'.networks ↔ k ∈ t.networks ∨ k = n) ∧
       ((∃ m ∈ t.networks, SameBlock m n) → r = EBUSY ∧ t'.networks = t.networks)) := by
  obtain ⟨hwf, -⟩ := reach_wf ctz0 h0 h
  obtain ⟨hbn, -⟩ := built_ok ctz0 h0 hn
  have hiff : (∃ m ∈ t.networks, SameBlock m n) ↔ ∃ m, look t (path n) = some m := by
    constructor
    · rintro ⟨m, hm, hs⟩
      obtain ⟨hbm, hlm⟩ := (mem_networks_wf hwf).mp hm
      rw [(sameBlock_iff_path hbm hbn).mp hs] at hlm
      exact ⟨m, hlm⟩
    · rintro ⟨m, hm⟩
      obtain ⟨hbm, hpm⟩ := look_block hwf hm
      exact ⟨m, (mem_networks _ _).mpr ⟨_, hm⟩, (sameBlock_iff_path hbm hbn).mpr hpm⟩
  obtain ⟨t', w, -, h3⟩ := treeAdd_spec hwf hbn
  rcases h3 with ⟨hnone, e, hl⟩ | ⟨m, hsome, e, hl⟩
  · refine ⟨0, t', e, fun _ => ⟨rfl, fun k => ?_⟩, fun hex => ?_⟩
    · rw [mem_networks, mem_networks]
      constructor
      · rintro ⟨u, hu⟩
        rw [hl] at hu
        split at hu
        · cases hu; exact .inr rfl
        · exact .inl ⟨u, hu⟩
      · rintro (⟨u, hu⟩ | rfl)
        · refine ⟨u, ?_⟩
          rw [hl, if_neg]
          · exact hu
          · rintro rfl; rw [hnone] at hu; cases hu
        · exact ⟨path k, by rw [hl, if_pos rfl]⟩
    · obtain ⟨m, hm⟩ := hiff.mp hex
      rw [hnone] at hm; cases hm
  · refine ⟨EBUSY, t', e, fun hno => ?_, fun _ => ⟨rfl, ?_⟩⟩
    · exact absurd (hiff.mpr ⟨m, hsome⟩) hno
    · exact sorted_ext w hwf (fun k => by
        rw [mem_networks, mem_networks]; simp only [hl])

/-- No block is stored twice, and the stored networks are in ascending order. -/
theorem stored_distinct (ctz0 : Nat) (h0 : 8 ≤ ctz0) {t : Tree} (h : Reach ctz0 t) :
    Ascending t.networks ∧ t.networks.Pairwise (fun m n => ¬ SameBlock m n) :=
  have hasc := networks_ascending (reach_wf ctz0 h0 h).1.good
  ⟨hasc, hasc.imp fun hb => before_not_same hb⟩

/-! ## C10 -/

/-- Cleaning up never changes the properties an address resolves to; an address is covered
    afterwards exactly if it was covered before.  This holds whatever the possibly freed prefix
    read at network-tree.c:434 yields. -/
theorem cleanup_preserves_lookup (ctz0 : Nat) (h0 : 8 ≤ ctz0) (reread : Network → Nat) {t : Tree} (h : Reach ctz0 t) :
    ∃ t', treeCleanup ctz0 reread t = .ok t' ∧ ∀ a,
      (∀ p, Resolves (· ∈ t.networks) a p ↔ Resolves (· ∈ t'.networks) a p) ∧
      ((∃ n ∈ t.networks, Contains n a) ↔ ∃ n ∈ t'.networks, Contains n a) := by
  obtain ⟨hwf, -⟩ := reach_wf ctz0 h0 h
  obtain ⟨t1, t2, t3, e1, -, -, -, w1, w3, -, hs, -, -, hstar, -⟩ := treeCleanup_spec ctz0 h0 reread hwf
  have hr := resolves_of_sameRes hwf w3 (hs.trans hstar.same)
  refine ⟨t3, e1, fun a => ⟨hr a, ?_⟩⟩
  rw [covered_iff hwf, covered_iff w3]
  exact exists_congr (hr a)

/-! ## C11 -/

theorem raw_of_props {m n : Network} (hm : CountryOk m) (hn : CountryOk n) (cm : m.cc0 = 0 → m.cc1 = 0)
    (cn : n.cc0 = 0 → n.cc1 = 0) (h : props m = props n) : raw m = raw n := by
  unfold props at h
  simp only [Prod.mk.injEq] at h
  obtain ⟨h1, h2, h3⟩ := h
  unfold raw
  rw [h2, h3]
  have z : ∀ k : Network, CountryOk k → k.cc0 ≠ 0 → k.cc1 ≠ 0 := by
    rintro k (h | h) h'
    · exact absurd h h'
    · exact (validCC_ne_zero h).2
  by_cases a : m.cc0 = 0 <;> by_cases b : n.cc0 = 0
  · rw [a, b, cm a, cn b]
  · rw [if_pos a, if_neg b, if_neg (z n hn b)] at h1; cases h1
  · rw [if_neg a, if_pos b, if_neg (z m hm a)] at h1; cases h1
  · rw [if_neg a, if_neg b, if_neg (z m hm a), if_neg (z n hn b)] at h1
    simp only [List.cons.injEq, and_true] at h1
    rw [h1.1, h1.2]

/-- The full claim. -/
def NoRepeat (t : Tree) : Prop :=
  ∀ n k, n ∈ t.networks → ClosestAround (fun k => k ∈ t.networks ∧ k.family = n.family) n k → props n ≠ props k

/-- After clean-up no network repeats the properties of the closest enclosing network.  Missing:
    IPv4 networks which are also enclosed by a stored IPv6 network (those are never compared), and
    networks whose country code was set and cleared again (the second letter remains in memory
    and is compared). -/
theorem cleanup_no_repeat_partial (ctz0 : Nat) (h0 : 8 ≤ ctz0) (reread : Network → Nat) {t t' : Tree}
    (h : Reach ctz0 t) (hc : treeCleanup ctz0 reread t = .ok t')
    (hclear : ∀ n ∈ t.networks, n.cc0 = 0 → n.cc1 = 0) {n k : Network}
    (hn : n ∈ t'.networks) (hk : ClosestAround (fun k => k ∈ t'.networks ∧ k.family = n.family) n k)
    (hfam : ∀ m ∈ t'.networks, Inside n m → m.family = n.family) : props n ≠ props k := by
  obtain ⟨hwf, hcc⟩ := reach_wf ctz0 h0 h
  obtain ⟨hwf', hcc'⟩ := reach_wf ctz0 h0 (Reach.cleanup h hc)
  obtain ⟨t1, t2, t3, e1, -, -, -, w1, w3, hsub, -, hc4, hc6, hstar, -⟩ := treeCleanup_spec ctz0 h0 reread hwf
  rw [hc] at e1; cases e1
  have hclear' : ∀ n ∈ t'.networks, n.cc0 = 0 → n.cc1 = 0 := by
    intro j hj
    obtain ⟨u, hu⟩ := (mem_networks _ _).mp hj
    obtain ⟨v, i, hi, hr⟩ := hstar.rawMem hu
    rcases hsub v with e | e
    · have := hclear i ((mem_networks _ _).mpr ⟨v, by rw [← e]; exact hi⟩)
      unfold raw at hr
      simp only [Prod.mk.injEq] at hr
      rw [← hr.1, ← hr.2.1]; exact this
    · rw [e] at hi; cases hi
  obtain ⟨⟨hk1, -⟩, hk2, hk3⟩ := hk
  obtain ⟨hbn, hln⟩ := (mem_networks_wf hwf').mp hn
  obtain ⟨hbk, hlk⟩ := (mem_networks_wf hwf').mp hk1
  have hpre := (path_prefix_iff hbk hbn).mpr hk2.1
  have hpne : path k ≠ path n := fun e => hk2.2 ((sameBlock_iff_path hbn hbk).mpr e.symm)
  have hpar : ParentAt (look t') (path n) (path k) k := by
    refine ⟨hpre, hpne, hlk, ?_⟩
    intro u h1 h2 h3 h4
    cases e : look t' u with
    | none => rfl
    | some m =>
      exfalso
      obtain ⟨hbm, hpm⟩ := look_block hwf' e
      have hin : Inside n m := (path_prefix_iff hbm hbn).mp (by rw [hpm]; exact h2)
      have hmm := (mem_networks _ _).mpr ⟨u, e⟩
      have := hk3 m ⟨hmm, hfam m hmm hin⟩
        ⟨hin, fun hs => h4 (by rw [← hpm]; exact ((sameBlock_iff_path hbn hbm).mp hs).symm)⟩
      apply h3
      refine (h1.eq_of_length ?_).symm
      have l1 := h1.length_le
      have l2 := length_path hbm.le
      rw [hpm] at l2
      have l3 := length_path hbk.le
      omega
  have hall : ∀ fam, n.family ≠ fam → ∀ v k, v <+: path n → look t' v = some k → k.family ≠ fam := by
    intro fam hne v j hv hj
    obtain ⟨hbj, hpj⟩ := look_block hwf' hj
    rw [hfam j ((mem_networks _ _).mpr ⟨v, hj⟩) ((path_prefix_iff hbj hbn).mp (by rw [hpj]; exact hv))]
    exact hne
  have hraw : raw k ≠ raw n := by
    cases hf : n.family with
    | inet =>
      exact cleanBelow_star hstar hc6 (path n) n List.nil_prefix hln (hall .inet6 (by rw [hf]; decide)) _ k hpar
    | inet6 =>
      exact cleanBelow_star hstar hc4 (path n) n List.nil_prefix hln (hall .inet (by rw [hf]; decide)) _ k hpar
  intro he
  exact hraw (raw_of_props (hcc' k hk1) (hcc' n hn) (hclear' k hk1) (hclear' n hn) he.symm)

/-! ### witnesses -/

/-- `::/0` -/
def netAll : Network :=
  { net10_1_16 with family := .inet6, pfx := 0, first := .replicate 16 0, last := .replicate 16 255 }
/-- 10.0.0.0/8 without properties -/
def net10_8p : Network := mk4 (ip4 10 0 0 0) (ip4 10 255 255 255) 8
/-- 10.0.0.0/8 whose country code was set to DE and then cleared -/
def net10_8s : Network := { net10_8p with cc1 := 69 }

theorem netAll_built (ctz0 : Nat) : Built ctz0 netAll :=
  .new (show newNetwork netAll.first 0 = .ok netAll by decide +kernel)
theorem net10_8p_built (ctz0 : Nat) : Built ctz0 net10_8p :=
  .new (show newNetwork (ip4 10 0 0 0) 8 = .ok net10_8p by decide +kernel)
theorem net10_8s_built (ctz0 : Nat) : Built ctz0 net10_8s :=
  .country (n := { net10_8p with cc0 := 68, cc1 := 69 }) (cc := none)
    (.country (cc := some [68, 69]) (net10_8p_built ctz0) (by decide +kernel)) (by decide +kernel)
theorem net10_1_16_built (ctz0 : Nat) : Built ctz0 net10_1_16 :=
  .new (show newNetwork (ip4 10 1 2 3) 16 = .ok net10_1_16 by decide +kernel)
theorem net10_0_16_built (ctz0 : Nat) : Built ctz0 net10_0_16 :=
  .new (show newNetwork (ip4 10 0 2 3) 16 = .ok net10_0_16 by decide +kernel)

/-- Adding networks to a writer one after the other. -/
def addAll : Tree → List Network → Res Tree
  | t, [] => .ok t
  | t, n :: l =>
    match treeAdd t n with
    | .error e => .error e
    | .ok (_, t') => addAll t' l

theorem addAll_reach {ctz0 : Nat} {l : List Network} (hl : ∀ n ∈ l, Built ctz0 n) {t t' : Tree}
    (h : Reach ctz0 t) (ha : addAll t l = .ok t') : Reach ctz0 t' := by
  induction l generalizing t with
  | nil => cases ha; exact h
  | cons n l ih =>
    unfold addAll at ha
    cases e : treeAdd t n with
    | error x => rw [e] at ha; cases ha
    | ok r =>
      rw [e] at ha
      exact ih (fun k hk => hl k (by simp [hk])) (h.add (hl n (by simp)) e) ha

def addNew (l : List Network) : Tree := match addAll treeNew l with | .ok t => t | .error _ => .nil
def cleaned (t : Tree) : Tree := match treeCleanup 32 (·.pfx) t with | .ok t => t | .error _ => .nil

theorem noRepeat_false {t : Tree} {n k : Network} (hn : n ∈ t.networks) (hk : k ∈ t.networks) (hbn : Block n)
    (hbk : Block k) (hs : isSubnet k n = true) (hne : ¬ SameBlock n k)
    (hcl : ∀ m ∈ t.networks, m.family = n.family → m.pfx < n.pfx → m.pfx ≤ k.pfx) (hf : k.family = n.family)
    (hbl : ∀ m ∈ t.networks, Block m) (hp : props n = props k) : ¬ NoRepeat t := by
  intro h
  refine h n k hn ⟨⟨hk, hf⟩, ⟨(is_subnet_iff hbk hbn).mp hs, hne⟩, ?_⟩ hp
  rintro m ⟨hm, hfm⟩ ⟨hin, hnm⟩
  have hpre := (path_prefix_iff (hbl m hm) hbn).mpr hin
  have hpne : path m ≠ path n := fun e => hnm ((sameBlock_iff_path hbn (hbl m hm)).mpr e.symm)
  apply hcl m hm hfm
  have h1 := hpre.length_le
  have h2 : (path m).length ≠ (path n).length := fun e => hpne (hpre.eq_of_length e)
  rw [length_path (hbl m hm).le, length_path hbn.le] at h1 h2
  omega

/-- The code violates the full claim: with `::/0` stored, 10.1.0.0/16 stays in the tree although it
    repeats the properties of 10.0.0.0/8. -/
theorem cleanup_repeat_violated_v6 : ∃ t t', Reach 32 t ∧ treeCleanup 32 (·.pfx) t = .ok t' ∧ ¬ NoRepeat t' := by
  refine ⟨addNew [netAll, net10_8p, net10_1_16], cleaned (addNew [netAll, net10_8p, net10_1_16]),
    addAll_reach (l := [netAll, net10_8p, net10_1_16]) ?_ .new (by decide +kernel), by decide +kernel,
    noRepeat_false (n := net10_1_16) (k := net10_8p) (by decide +kernel) (by decide +kernel) (by decide +kernel)
      (by decide +kernel) (by decide +kernel) (by decide +kernel) (by decide +kernel) (by decide +kernel)
      (by decide +kernel) (by decide +kernel)⟩
  intro n hn
  simp only [List.mem_cons, List.not_mem_nil, or_false] at hn
  rcases hn with rfl | rfl | rfl
  · exact netAll_built _
  · exact net10_8p_built _
  · exact net10_1_16_built _

/-- The code violates the full claim: a country code that was cleared still makes a difference. -/
theorem cleanup_repeat_violated_stale : ∃ t t', Reach 32 t ∧ treeCleanup 32 (·.pfx) t = .ok t' ∧ ¬ NoRepeat t' := by
  refine ⟨addNew [net10_8s, net10_1_16], cleaned (addNew [net10_8s, net10_1_16]),
    addAll_reach (l := [net10_8s, net10_1_16]) ?_ .new (by decide +kernel), by decide +kernel,
    noRepeat_false (n := net10_1_16) (k := net10_8s) (by decide +kernel) (by decide +kernel) (by decide +kernel)
      (by decide +kernel) (by decide +kernel) (by decide +kernel) (by decide +kernel) (by decide +kernel)
      (by decide +kernel) (by decide +kernel)⟩
  intro n hn
  simp only [List.mem_cons, List.not_mem_nil, or_false] at hn
  rcases hn with rfl | rfl
  · exact net10_8s_built _
  · exact net10_1_16_built _

/-- A non-trivial instance of the theorems above: 10.0.0.0/16, 10.1.0.0/16 and 10.1.2.0/24 without
    properties become 10.0.0.0/15. -/
example : Reach 32 (addNew [net10_0_16, net10_1_2_24, net10_1_16]) ∧
    treeCleanup 32 (·.pfx) (addNew [net10_0_16, net10_1_2_24, net10_1_16]) =
      .ok (cleaned (addNew [net10_0_16, net10_1_2_24, net10_1_16])) ∧
    (cleaned (addNew [net10_0_16, net10_1_2_24, net10_1_16])).networks = [net10_0_15] := by
  refine ⟨addAll_reach (l := [net10_0_16, net10_1_2_24, net10_1_16]) ?_ .new (by decide +kernel),
    by decide +kernel, by decide +kernel⟩
  intro n hn
  simp only [List.mem_cons, List.not_mem_nil, or_false] at hn
  rcases hn with rfl | rfl | rfl
  · exact net10_0_16_built _
  · exact .new (show newNetwork (ip4 10 1 2 3) 24 = .ok net10_1_2_24 by decide +kernel)
  · exact net10_1_16_built _

/-- Two nested networks with different properties survive: an instance of
    `cleanup_no_repeat_partial` with a closest enclosing network. -/
example : (cleaned (addNew [net10_8, net10_1_16])).networks = [net10_8, net10_1_16] ∧
    (∀ n ∈ (addNew [net10_8, net10_1_16]).networks, n.cc0 = 0 → n.cc1 = 0) ∧
    (∀ m ∈ (cleaned (addNew [net10_8, net10_1_16])).networks, m.family = net10_1_16.family) := by
  decide +kernel

/-- Adding the same block twice is refused. -/
example : (treeAdd (addNew [net10_8]) net10_8p).map (·.1) = .ok EBUSY ∧
    (treeAdd (addNew [net10_8]) net10_1_16).map (·.1) = .ok 0 := by decide +kernel

end Loc.Props
