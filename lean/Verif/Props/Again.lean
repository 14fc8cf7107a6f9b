import Verif.Lemmas.Again
import Verif.Props.Join
import Verif.Props.Order
/-
Writing again writes the same database: C85.
-/
namespace Loc.Props
open Loc Spec

/-! ## Cleaning up again -/

theorem around_none {t : Tree} (hw : WF t) (hv : ∀ n ∈ t.networks, ¬ HoldsIPv4 n) (u : List Bool) (hu : Around u) :
    look t u = none := by
  cases hl : look t u with
  | none => rfl
  | some n =>
    obtain ⟨b1, b2⟩ := look_block hw hl
    exact absurd (holdsIPv4_of_around b1 (by rw [b2]; exact hu)) (hv n ((mem_networks _ _).mpr ⟨u, hl⟩))

theorem same_family_below {t : Tree} (hw : WF t) (hout : ∀ u, Around u → look t u = none) {u v : List Bool} {y k : Network}
    (hy : look t u = some y) (hk : look t v = some k) (hvu : v <+: u) : k.family = y.family := by
  obtain ⟨by1, py⟩ := look_block hw hy
  obtain ⟨bk1, pk⟩ := look_block hw hk
  have f1 := block_v4_iff by1
  have f2 := block_v4_iff bk1
  rw [py] at f1
  rw [pk] at f2
  have h : v4path <+: u ↔ v4path <+: v := by
    constructor
    · intro h
      rcases List.prefix_or_prefix_of_prefix h hvu with h' | h'
      · exact h'
      · by_cases e : v = v4path
        · rw [e]; exact List.prefix_refl _
        · have := hout v ⟨h', e⟩
          rw [hk] at this; cases this
    · intro h; exact h.trans hvu
  rw [h, ← f2] at f1
  cases hy6 : y.family <;> cases hk6 : k.family <;> simp_all

/-- Cleaning up a second time changes nothing, once all halves are joined. -/
theorem cleanup_again_partial (ctz0 : Nat) (h0 : 8 ≤ ctz0) {reread reread' : Network → Nat} {t t' : Tree} (h : Reach ctz0 t)
    (hc : treeCleanup ctz0 reread t = .ok t') (hv : ∀ n ∈ t.networks, ¬ HoldsIPv4 n) (hj : AllJoined t'.networks) :
    treeCleanup ctz0 reread' t' = .ok t' := by
  obtain ⟨hwf, -⟩ := reach_wf ctz0 h0 h
  obtain ⟨t1, t2, t3, e1, -, -, -, w1, w3, hsub, -, hc4, hc6, hstar, hpr⟩ := treeCleanup_spec ctz0 h0 reread hwf
  rw [hc] at e1; cases e1
  have hout1 : ∀ u, Around u → look t1 u = none := by
    intro u hu
    rcases hsub u with e | e
    · rw [e]; exact around_none hwf hv u hu
    · exact e
  have hout : ∀ u, Around u → look t' u = none := hstar.around (fun u n hu => look_block w1 hu) hout1
  have htwice : NoTwice (look t') := by
    intro u y v n hy hp
    have hall : ∀ fam, y.family ≠ fam → ∀ v k, v <+: u → look t' v = some k → k.family ≠ fam := by
      intro fam hne v k hvu hk
      rw [same_family_below w3 hout hy hk hvu]
      exact hne
    cases hf : y.family with
    | inet => exact cleanBelow_star hstar hc6 u y List.nil_prefix hy (hall .inet6 (by rw [hf]; decide)) v n hp
    | inet6 => exact cleanBelow_star hstar hc4 u y List.nil_prefix hy (hall .inet (by rw [hf]; decide)) v n hp
  obtain ⟨s1, s2, s3, d1, d2, -, -, x1, x3, -, -, -, -, xstar, xpr⟩ := treeCleanup_spec ctz0 h0 reread' w3
  have i1 := treeDedup_idle w3 d2 htwice
  rw [i1] at xstar
  have i2 : look s3 = look t' := by
    refine xstar.idle ?_
    intro v n0 n1 m a3 a4 hr hf bm pm hnone
    obtain ⟨b0, p0⟩ := look_block w3 a3
    obtain ⟨b1, p1⟩ := look_block w3 a4
    have lm := length_path bm.le
    have l0 := length_path b0.le
    have l1 := length_path b1.le
    rw [p0] at l0
    rw [p1] at l1
    rw [pm] at lm
    simp at l0 l1
    obtain ⟨k, hk, hs⟩ := hj n0 n1 m ((mem_networks _ _).mpr ⟨_, a3⟩) ((mem_networks _ _).mpr ⟨_, a4⟩)
      ⟨bm, by omega, by omega, (path_prefix_iff bm b0).mp (by rw [p0, pm]; exact List.prefix_append _ _),
        (path_prefix_iff bm b1).mp (by rw [p1, pm]; exact List.prefix_append _ _), before_halves b0 b1 p0 p1⟩ hf
      (by unfold raw at hr; simp only [Prod.mk.injEq] at hr; unfold props; rw [hr.1, hr.2.1, hr.2.2.1, hr.2.2.2])
    obtain ⟨bk, lk⟩ := (mem_networks_wf w3).mp hk
    rw [(sameBlock_iff_path bk bm).mp hs, pm, hnone] at lk
    cases lk
  rw [d1, prunedRoot_ext xpr hpr i2]

/-- A tree that cleaning up does not change has all halves joined. -/
theorem cleanup_fixed_joined (ctz0 : Nat) (h0 : 8 ≤ ctz0) {t : Tree} (h : Reach ctz0 t)
    (hc : treeCleanup ctz0 netPrefix t = .ok t) (hclear : ∀ n ∈ t.networks, n.cc0 = 0 → n.cc1 = 0)
    (hv : ∀ n ∈ t.networks, ¬ HoldsIPv4 n) : AllJoined t.networks :=
  fun _ _ _ ha hb hh hf hp => cleanup_joins_partial ctz0 h0 h hc hclear hv ha hb hh hf hp

/-! ## Writing again -/

/-- C85, proved part: a writer that has written a file writes the same file again, to a new place or over the first
    file, and is not changed by that.  `e` is the same both times: the second write happens within the same second,
    finds the same garbage in memory nobody initialises, and signing is deterministic.

    Assumed: every AS has a name that is not empty, no country has an empty name, no IPv6 network with IPv4 addresses
    in it was added, and all halves were joined by the first write.  The first and the last assumption are necessary,
    see the theorems below; the last one holds whenever no network lies inside another (`write_again_flat`). -/
theorem write_again_partial {K : Type} {ctz0 : Nat} (h0 : 8 ≤ ctz0) {key1 key2 : Option K} {ops : List (WOp K)} {e : WEnv K}
    {w w1 : Writer K} {old f : Bytes} {version : Nat} (h : Writes ctz0 key1 key2 ops w) (he : e.ctz0 = ctz0)
    (hw : writerWrite e w old version = .ok (w1, some f))
    (hname : ∀ number name, asesOf ops number = some name → name ≠ none ∧ name ≠ some [])
    (hcountry : ∀ code cont name, countriesOf ops code = some (cont, name) → name ≠ some [])
    (hv : ∀ n ∈ w.networks.networks, ¬ HoldsIPv4 n) (hj : AllJoined w1.networks.networks) :
    writerWrite e w1 old version = .ok (w1, some f) ∧ writerWrite e w1 f version = .ok (w1, some f) := by
  have hi := winv h
  obtain ⟨ss, hp, -, -, -⟩ := hi.pool
  have hi1 := winv_write hi he hw
  rcases writerWrite_cases hw with ⟨-, hf⟩ | ⟨s, w2, hs, hr⟩
  · cases hf
  rcases hr with ⟨-, hf⟩ | ⟨sig1, len1, sig2, len2, msg, rest, hrest, hmsg, g1, g2, hw1, hf⟩
  · cases hf
  have ht : treeCleanup e.ctz0 e.reread w2.networks = .ok w2.networks := by
    have hc : treeCleanup e.ctz0 e.reread w.networks = .ok w2.networks := by
      unfold writeSections at hs
      simp only at hs
      split at hs
      · cases hs
      split at hs
      · cases hs
      rename_i t htc
      split at hs
      · cases hs
      split at hs
      · cases hs
      cases hs
      exact htc
    rw [he] at hc ⊢
    rw [hw1] at hj
    exact cleanup_again_partial ctz0 h0 hi.reach hc hv hj
  have hs2 : writeSections e w2 = .ok (s, w2) := by
    refine writeSections_again hp hi.nodup ?_ ?_ hs ht
    · intro a ha
      exact ⟨hi.names a ha, hname a.number a.name ((hi.ases _ _).mp ha)⟩
    · intro c hc
      exact ⟨(hi.cgood c hc).name, hcountry _ _ _ ((hi.countries _ _ _).mp ⟨c, hc, rfl, rfl, rfl⟩)⟩
  have hs1 : writeSections e w1 = .ok (s, w1) := by
    have key : ∀ (a b : Bytes) (i j : Nat), writeSections e { w2 with sig1 := a, sig1Len := i, sig2 := b, sig2Len := j } =
        (writeSections e w2).map fun r => (r.1, { r.2 with sig1 := a, sig1Len := i, sig2 := b, sig2Len := j }) := by
      intro a b i j
      unfold writeSections
      simp only
      cases writeAses (asListSort w2.ases) w2.pool with
      | error x => rfl
      | ok r =>
        simp only
        cases treeCleanup e.ctz0 e.reread w2.networks with
        | error x => rfl
        | ok t =>
          simp only
          cases bfsLoop (t.size + 1) [t] 0 0 with
          | error x => rfl
          | ok q =>
            simp only
            cases writeCountries w2.countries e.junkContinent r.2 <;> rfl
    rw [hw1, key, hs2]
    rfl
  have hver : ∃ u, writeVersion version = .ok u := by
    unfold writerWrite at hw
    split at hw
    · cases hw
    · rename_i u hu; exact ⟨u, hu⟩
  obtain ⟨u, hver⟩ := hver
  have hhead : makeHeader e w1 s = makeHeader e w2 s := by rw [hw1]; rfl
  have key : ∀ old', old'.drop (magicSize + headerSize + (bodyBytes s).length) =
      old.drop (magicSize + headerSize + (bodyBytes s).length) → writerWrite e w1 old' version = .ok (w1, some f) := by
    intro old' hold
    have q1 : signWith e.sign w1.key1 msg w1.sig1 w1.sig1Len = .ok (sig1, len1) := by
      rw [hw1]; exact signWith_again g1
    have q2 : signWith e.sign w1.key2 msg w1.sig2 w1.sig2Len = .ok (sig2, len2) := by
      rw [hw1]; exact signWith_again g2
    unfold writerWrite
    rw [hver]
    simp only
    rw [hs1]
    simp only
    rw [hold, ← hrest, hhead, ← hmsg, q1]
    simp only
    rw [q2]
    simp only
    rw [hf, hw1]
  refine ⟨key old rfl, key f ?_⟩
  have hi2 : sig1.length = sigMax ∧ sig2.length = sigMax ∧ len1 ≤ sigMax ∧ len2 ≤ sigMax := by
    have a := hi1.s1; have b := hi1.s2; have c := hi1.l1; have d := hi1.l2
    rw [hw1] at a b c d
    exact ⟨a, b, c, d⟩
  have hlen : (magic ++ headerBytes (makeHeader e w2 s) (sig1.take len1) (sig2.take len2)).length = magicSize + headerSize := by
    rw [List.length_append, length_magic, length_headerBytes _ (by rw [List.length_take]; omega) (by rw [List.length_take]; omega)]
  cases hf
  rw [← List.drop_drop, ← hlen, List.drop_left, hrest, List.drop_left, hlen]

/-- If no network lies inside another one and the prefix of a freed network still reads the same, then everything is
    joined by the first write. -/
theorem write_again_flat {K : Type} {ctz0 : Nat} (h0 : 8 ≤ ctz0) {key1 key2 : Option K} {ops : List (WOp K)} {e : WEnv K}
    {w w1 : Writer K} {old f : Bytes} {version : Nat} (h : Writes ctz0 key1 key2 ops w) (he : e.ctz0 = ctz0)
    (hr : e.reread = netPrefix) (hw : writerWrite e w old version = .ok (w1, some f))
    (hname : ∀ number name, asesOf ops number = some name → name ≠ none ∧ name ≠ some [])
    (hcountry : ∀ code cont name, countriesOf ops code = some (cont, name) → name ≠ some [])
    (hv : ∀ n ∈ w.networks.networks, ¬ HoldsIPv4 n) (hclear : ∀ n ∈ w.networks.networks, n.cc0 = 0 → n.cc1 = 0)
    (hflat : Flat w.networks.networks) :
    writerWrite e w1 old version = .ok (w1, some f) ∧ writerWrite e w1 f version = .ok (w1, some f) := by
  refine write_again_partial h0 h he hw hname hcountry hv ?_
  rcases writerWrite_cases hw with ⟨-, hf⟩ | ⟨s, w2, hs, hc⟩
  · cases hf
  rcases hc with ⟨-, hf⟩ | ⟨sig1, len1, sig2, len2, msg, rest, -, -, -, -, hw1, -⟩
  · cases hf
  have hc : treeCleanup e.ctz0 e.reread w.networks = .ok w2.networks := by
    unfold writeSections at hs
    simp only at hs
    split at hs
    · cases hs
    split at hs
    · cases hs
    rename_i t htc
    split at hs
    · cases hs
    split at hs
    · cases hs
    cases hs
    exact htc
  rw [hw1]
  rw [he, hr] at hc
  exact cleanup_joins_flat ctz0 h0 (winv h).reach hc hclear hv hflat

/-! ### witnesses -/

/-- Two files written one after the other. -/
def twice (e : WEnv Unit) (ops : List (WOp Unit)) : Option (Bytes × Bytes) :=
  match runOf ops with
  | none => none
  | some w => match writerWrite e w [] 0 with
    | .ok (w1, some f) => match writerWrite e w1 [] 0 with
      | .ok (_, some f') => some (f, f')
      | _ => none
    | _ => none

theorem twice_differ {e : WEnv Unit} {ops : List (WOp Unit)} (hok : ∀ op ∈ ops, OpOk 32 op) (k : Nat)
    (h : (match twice e ops with | some (f, f') => f[k]? != f'[k]? | none => false) = true) :
    ∃ w w1 w2 f f', Writes 32 none none ops w ∧ writerWrite e w [] 0 = .ok (w1, some f) ∧
      writerWrite e w1 [] 0 = .ok (w2, some f') ∧ f ≠ f' := by
  unfold twice at h
  cases hw : runOf ops with
  | none => rw [hw] at h; cases h
  | some w =>
    rw [hw] at h
    simp only at h
    cases h1 : writerWrite e w [] 0 with
    | error x => rw [h1] at h; cases h
    | ok r =>
      obtain ⟨w1, f⟩ := r
      rw [h1] at h
      cases f with
      | none => cases h
      | some f =>
        simp only at h
        cases h2 : writerWrite e w1 [] 0 with
        | error x => rw [h2] at h; cases h
        | ok r =>
          obtain ⟨w2, f'⟩ := r
          rw [h2] at h
          cases f' with
          | none => cases h
          | some f' =>
            simp only at h
            refine ⟨w, w1, w2, f, f', runOf_writes hok hw, h1, h2, ?_⟩
            rintro rfl
            simp at h

/-- The code violates the claim for an AS without a name: each write stores another empty string. -/
theorem write_again_violated_name : ∃ w w1 w2 f f', Writes 32 none none [WOp.addAs 64512 none] w ∧
    writerWrite demoEnv w [] 0 = .ok (w1, some f) ∧ writerWrite demoEnv w1 [] 0 = .ok (w2, some f') ∧ f ≠ f' := by
  refine twice_differ ?_ 67 (by decide +kernel)
  intro op hop
  simp only [List.mem_cons, List.not_mem_nil, or_false] at hop
  rcases hop with rfl
  exact strOk_none

/-- The code violates the claim for networks whose halves the first write does not join: the second one does. -/
theorem write_again_violated_join : ∃ w w1 w2 f f',
    Writes 32 none none [WOp.addNetwork j9, .addNetwork j10, .addNetwork j10', .addNetwork j9'] w ∧
    writerWrite demoEnv w [] 0 = .ok (w1, some f) ∧ writerWrite demoEnv w1 [] 0 = .ok (w2, some f') ∧ f ≠ f' := by
  refine twice_differ ?_ 43 (by decide +kernel)
  intro op hop
  simp only [List.mem_cons, List.not_mem_nil, or_false] at hop
  rcases hop with rfl | rfl | rfl | rfl
  · exact j9_built 32
  · exact j10_built 32
  · exact j10'_built 32
  · exact j9'_built 32

/-- AS 1 "A", Germany, 10.0.0.0/10 and 10.64.0.0/10 -/
def againOps : List (WOp Unit) :=
  [.addAs 1 (some [65]), .addCountry (some [68, 69]) none (some [68]), .addNetwork j10, .addNetwork j10']

/-- A non-trivial case meeting the assumptions. -/
example : ∃ w w1 f, Writes 32 none none againOps w ∧ writerWrite demoEnv w [] 0 = .ok (w1, some f) ∧
    (∀ number name, asesOf againOps number = some name → name ≠ none ∧ name ≠ some []) ∧
    (∀ code cont name, countriesOf againOps code = some (cont, name) → name ≠ some []) ∧
    w.networks.networks = [j10, j10'] ∧ (∀ n ∈ w.networks.networks, ¬ HoldsIPv4 n) ∧
    w1.networks.networks = [{ j9 with asn := 0 }] ∧ AllJoined w1.networks.networks := by
  have hok : ∀ op ∈ againOps, OpOk 32 op := by
    intro op hop
    simp only [againOps, List.mem_cons, List.not_mem_nil, or_false] at hop
    rcases hop with rfl | rfl | rfl | rfl
    · exact strOk_some _ (by decide)
    · exact ⟨strOk_some _ (by decide), strOk_none, strOk_some _ (by decide)⟩
    · exact j10_built 32
    · exact j10'_built 32
  have h : (match runOf againOps with
      | none => false
      | some w => match writerWrite demoEnv w [] 0 with
        | .ok (w1, some _) => w.networks.networks == [j10, j10'] && w1.networks.networks == [{ j9 with asn := 0 }]
        | _ => false) = true := by decide +kernel
  cases hw : runOf againOps with
  | none => rw [hw] at h; cases h
  | some w =>
    rw [hw] at h
    simp only at h
    cases h1 : writerWrite demoEnv w [] 0 with
    | error x => rw [h1] at h; cases h
    | ok r =>
      obtain ⟨w1, f⟩ := r
      rw [h1] at h
      cases f with
      | none => cases h
      | some f =>
        simp only [Bool.and_eq_true, beq_iff_eq] at h
        refine ⟨w, w1, f, runOf_writes hok hw, h1, ?_, ?_, h.1, ?_, h.2, ?_⟩
        · intro number name hn
          simp only [againOps, asesOf, asStep, List.foldl] at hn
          split at hn
          · cases hn; decide
          · cases hn
        · intro code cont name hn
          simp only [againOps, countriesOf, countryStep, List.foldl] at hn
          split at hn
          · cases hn; decide
          · cases hn
        · rw [h.1]
          intro n hn h4
          have h5 := h4.1
          simp only [List.mem_cons, List.not_mem_nil, or_false] at hn
          rcases hn with rfl | rfl <;> cases h5
        · rw [h.2]
          intro a b m ha hb hh
          simp only [List.mem_cons, List.not_mem_nil, or_false] at ha hb
          obtain ⟨-, -, -, -, -, hbef⟩ := hh
          rw [ha, hb] at hbef
          exfalso
          rcases hbef with hb | ⟨-, hb⟩ <;> exact absurd hb (Nat.lt_irrefl _)

end Loc.Props
