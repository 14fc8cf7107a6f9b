import Verif.Props.Agree
import Verif.Props.Export
/-
C94: exports of one database fit together, and to lookups.
-/
namespace Loc.Props
open Loc Loc.Spec

theorem most_specific_unique {K : Type} {ctz0 : Nat} (h0 : 8 ≤ ctz0) {key1 key2 : Option K} {ops : List (WOp K)} {e : WEnv K}
    {w : Writer K} {f : Bytes} (h : Written ctz0 key1 key2 ops e w f) {a : Addr} {m n : Network}
    (hm : MostSpecific (· ∈ w.networks.networks) a m) (hn : MostSpecific (· ∈ w.networks.networks) a n) : m = n := by
  obtain ⟨db', ho', hh⟩ := written_holds h0 h
  obtain ⟨m1, m2, m3⟩ := hm
  obtain ⟨n1, n2, n3⟩ := hn
  obtain ⟨bm, lm⟩ := (mem_networks_wf hh.wf).mp m1
  obtain ⟨bn, ln⟩ := (mem_networks_wf hh.wf).mp n1
  have hs := block_same_prefix bm bn (Nat.le_antisymm (n3 m m1 m2) (m3 n n1 n2)) m2 n2
  have : path m = path n := by
    unfold path
    rw [value_inj hs.1, hs.2]
  rw [this, ln] at lm
  cases lm
  rfl

/-- Two different countries (no special codes), or two different ASes. -/
def Rivals : Key → Key → Prop
  | .country c, .country d => specialBit c = none ∧ specialBit d = none ∧ c ≠ d
  | .asn x, .asn y => x ≠ y
  | _, _ => False

theorem rivals_apart {k k' : Key} (hr : Rivals k k') {n : Network} (h : BelongsTo k n) (h' : BelongsTo k' n) : False := by
  cases k with
  | country c =>
    cases k' with
    | country d =>
      obtain ⟨h1, h2, h3⟩ := hr
      unfold BelongsTo at h h'
      simp only [h1, h2] at h h'
      exact h3 (h.symm.trans h')
    | asn y => exact hr
  | asn x =>
    cases k' with
    | country d => exact hr
    | asn y => exact hr (h.2.symm.trans h'.2)

/-- C94: two outputs for different countries or for different ASes, of one export or of two exports of the same database with
    whatever arguments, have no address in common. -/
theorem export_apart {K : Type} {ctz0 : Nat} (h0 : 8 ≤ ctz0) {key1 key2 : Option K} {ops : List (WOp K)} {e : WEnv K}
    {w : Writer K} {f : Bytes} (h : Written ctz0 key1 key2 ops e w f) {db : Db} (ho : dbOpen f = .ok db)
    (hd : ¬ TooDeep (· ∈ w.networks.networks)) (hv : ∀ n ∈ w.networks.networks, ¬ AroundV4 n)
    {family family' : Nat} {countries countries' : List CStr} (hc : CodesOk countries) (hc' : CodesOk countries') {asns asns' : List Nat}
    {out out' : Outputs} {steps steps' : Nat} (hx : ∀ fuel, steps ≤ fuel → exportFamily db fuel family countries asns = .ok (.ok out))
    (hx' : ∀ fuel, steps' ≤ fuel → exportFamily db fuel family' countries' asns' = .ok (.ok out'))
    {k k' : Key} (hr : Rivals k k') {L L' : List Network} (hL : (k, L) ∈ out) (hL' : (k', L') ∈ out') (a : Addr) :
    ¬ (Covers L a ∧ Covers L' a) := by
  obtain ⟨r, st, r1, -, r2⟩ := export_sound h0 h ho hd hv family hc asns
  obtain ⟨r', st', r1', -, r2'⟩ := export_sound h0 h ho hd hv family' hc' asns'
  have e1 := (r1 (st + steps) (by omega)).symm.trans (hx (st + steps) (by omega))
  have e2 := (r1' (st' + steps') (by omega)).symm.trans (hx' (st' + steps') (by omega))
  simp only [Except.ok.injEq] at e1 e2
  rintro ⟨h1, h2⟩
  obtain ⟨n, n1, -, n3, -⟩ := (((r2 out e1).2.2 k L hL).2.2.2 a).mp h1
  obtain ⟨n', m1, -, m3, -⟩ := (((r2' out' e2).2.2 k' L' hL').2.2.2 a).mp h2
  have := most_specific_unique h0 h n1 m1
  subst this
  exact rivals_apart hr n3 m3

/-- C94: an address for which a lookup returns a network is in the output for a country or AS exactly if that network is of the
    family and belongs to the country or AS; in the output for a special code only if it has the flag. -/
theorem export_lookup {K : Type} {ctz0 : Nat} (h0 : 8 ≤ ctz0) {key1 key2 : Option K} {ops : List (WOp K)} {e : WEnv K}
    {w : Writer K} {f : Bytes} (h : Written ctz0 key1 key2 ops e w f) {db : Db} (ho : dbOpen f = .ok db)
    (hd : ¬ TooDeep (· ∈ w.networks.networks)) (hv : ∀ n ∈ w.networks.networks, ¬ AroundV4 n)
    {family : Nat} {countries : List CStr} (hc : CodesOk countries) {asns : List Nat}
    {out : Outputs} {steps : Nat} (hx : ∀ fuel, steps ≤ fuel → exportFamily db fuel family countries asns = .ok (.ok out))
    {k : Key} {L : List Network} (hL : (k, L) ∈ out) {a : Addr} {m : Network} (hl : lookup db a = .ok (.ok (some m))) :
    (Covers L a → OfFamily family m ∧ BelongsTo k m) ∧
    ((∀ c, k = .country c → specialBit c = none) → OfFamily family m → BelongsTo k m → Covers L a) := by
  obtain ⟨r, st, r1, -, r2⟩ := export_sound h0 h ho hd hv family hc asns
  have e1 := (r1 (st + steps) (by omega)).symm.trans (hx (st + steps) (by omega))
  simp only [Except.ok.injEq] at e1
  obtain ⟨-, s2, s3⟩ := r2 out e1
  obtain ⟨-, -, j, hj, hs, hp⟩ := lookup_sound h0 h ho hl
  have hb := belongs_readFrom hp k
  have hof : OfFamily family m ↔ OfFamily family j := by
    unfold OfFamily IsV4
    rw [hs.1]
  constructor
  · intro hcov
    obtain ⟨n, n1, n2, n3, -⟩ := ((s3 k L hL).2.2.2 a).mp hcov
    have := most_specific_unique h0 h n1 hj
    subst this
    exact ⟨hof.mpr n2, hb.mpr n3⟩
  · intro hk hf hbm
    have hbj := hb.mp hbm
    refine ((s3 k L hL).2.2.2 a).mpr ⟨j, hj, hof.mp hf, hbj, ?_⟩
    have hask := (s2 k).mp ⟨L, hL⟩
    cases k with
    | country c =>
      left
      have hsc := hk c rfl
      unfold BelongsTo at hbj
      simp only [hsc] at hbj
      exact ⟨c, hask, hsc, hbj⟩
    | asn x =>
      right
      refine ⟨x, hask, ?_⟩
      rw [← hbj.2]
      simp

/-- In the sample database 8.1.2.3 is found. -/
theorem export_found {w : Writer Unit} {f : Bytes} {db : Db} (h1 : Written 32 none none exportOps demoEnv w f) (h2 : dbOpen f = .ok db)
    (h3 : w.networks.networks = [netA1]) : ∃ m, lookup db (ip4 8 1 2 3) = .ok (.ok (some m)) ∧ props m = props netA1 := by
  have h4 : LongestPrefixMatch (· ∈ w.networks.networks) db (ip4 8 1 2 3) := by
    apply lookup_longest_prefix_partial (by decide) h1 h2
    · rw [h3]; decide +kernel
    · rw [h3]
      have key : ∀ k ∈ [netA1], ¬ (k.pfx = 95 ∧ IsV4 (ip4 8 1 2 3)) ∧ ∀ m ∈ [netA1], k.pfx < m.pfx →
            ¬ value m.first / 2 ^ (128 - (k.pfx + 1)) = value (ip4 8 1 2 3) / 2 ^ (128 - (k.pfx + 1)) := by
        decide +kernel
      rintro k ⟨k1, k2, k3⟩
      exact key k k1
  obtain ⟨r, r1, r2, -⟩ := h4
  have hms : MostSpecific (· ∈ w.networks.networks) (ip4 8 1 2 3) netA1 := by
    rw [h3]
    have key : ∀ m ∈ [netA1], Contains m (ip4 8 1 2 3) → m.pfx ≤ netA1.pfx := by decide +kernel
    exact ⟨by decide +kernel, by decide +kernel, key⟩
  obtain ⟨m, rfl, -⟩ := r2 netA1 hms
  refine ⟨m, r1, (lookup_most_specific (by decide) h1 h2 r1 hms (readFrom_readBack netA1)).2.trans ?_⟩
  decide +kernel

/-- The sample meets the hypotheses: `location export DE FR` has outputs for both, and 8.1.2.3 is found. -/
example : ∃ w f db out steps L L' m, Written 32 none none exportOps demoEnv w f ∧ dbOpen f = .ok db ∧
    ¬ TooDeep (· ∈ w.networks.networks) ∧ (∀ n ∈ w.networks.networks, ¬ AroundV4 n) ∧ CodesOk [[68, 69], [70, 82]] ∧
    (∀ fuel, steps ≤ fuel → exportFamily db fuel 2 [[68, 69], [70, 82]] [] = .ok (.ok out)) ∧
    (Key.country [68, 69], L) ∈ out ∧ (Key.country [70, 82], L') ∈ out ∧ Rivals (.country [68, 69]) (.country [70, 82]) ∧
    lookup db (ip4 8 1 2 3) = .ok (.ok (some m)) ∧ Covers L (ip4 8 1 2 3) := by
  obtain ⟨w, f, db, h1, h2, h3, h4, h5, h6⟩ := export_sample
  have hc : CodesOk [[68, 69], [70, 82]] := by
    intro c hc
    left
    have : ∀ c ∈ ([[68, 69], [70, 82]] : List CStr), ccIsValid (some c) = true := by decide
    exact (ccIsValid_iff _).mp (this c hc)
  obtain ⟨out, steps, g1, -, g3, g4⟩ := export_exact_partial (by decide) h1 h2 h4 h5 h6 2 hc []
  obtain ⟨L, hL⟩ := (g3 (.country [68, 69])).mpr (by simp [Asked])
  obtain ⟨L', hL'⟩ := (g3 (.country [70, 82])).mpr (by simp [Asked])
  obtain ⟨m, hm, hp⟩ := export_found h1 h2 h3
  refine ⟨w, f, db, out, steps, L, L', m, h1, h2, h4, h5, hc, g1, hL, hL', by unfold Rivals; decide, hm, ?_⟩
  refine (export_lookup (by decide) h1 h2 h4 h5 hc g1 hL hm).2 (by rintro c ⟨⟩; decide) ?_ ?_
  · intro _
    left
    obtain ⟨-, -, j, ⟨hj, -, -⟩, hs, -⟩ := lookup_sound (by decide) h1 h2 hm
    rw [h3, List.mem_singleton] at hj
    subst hj
    refine ⟨rfl, ?_⟩
    unfold IsV4
    rw [hs.1]
    decide +kernel
  · show (props m).1 = _
    rw [hp]
    decide +kernel

/-- Lookups and exports disagree about special codes: in the sample database the lookup of 8.1.2.3 returns a network with the flag of
    anonymous proxies, and `location export A1` writes nothing. -/
theorem export_lookup_violated : ∃ w f db out steps m, Written 32 none none exportOps demoEnv w f ∧ dbOpen f = .ok db ∧
    lookup db (ip4 8 1 2 3) = .ok (.ok (some m)) ∧ BelongsTo (.country [65, 49]) m ∧
    (∀ fuel, steps ≤ fuel → exportFamily db fuel 2 [[65, 49]] [] = .ok (.ok out)) ∧ (Key.country [65, 49], []) ∈ out := by
  obtain ⟨w, f, db, h1, h2, h3, h4, h5, h6⟩ := export_sample
  obtain ⟨out, steps, g1, g2, -⟩ := export_special_empty (by decide) h1 h2 h4 h5 h6 2 (countries := [[65, 49]])
    (by intro c hc; simp only [List.mem_singleton] at hc; subst hc; decide)
  obtain ⟨m, hm, hp⟩ := export_found h1 h2 h3
  refine ⟨w, f, db, out, steps, m, h1, h2, hm, ?_, g1, g2 _ (by simp)⟩
  show m.flags.getLsbD 0 = true
  rw [show m.flags = netA1.flags from congrArg (·.2.2) hp]
  decide +kernel

end Loc.Props
