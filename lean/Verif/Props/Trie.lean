import Verif.Lemmas.Trie
import Verif.Props.Lookup
/-
C13: the written trie; C36: network records.
-/
namespace Loc.Props
open Loc Loc.Spec

/-! ## C36 -/

/-- Whatever network was written into a record, whatever is in its padding, and wherever in the tree the record is
    found (address and number of bits, bits counted in the IPv6 notation): the network that is read has
    exactly the addresses sharing these bits and the properties that were written.  (Fewer than 96 bits
    of an IPv4 address do not denote an IPv4 network.) -/
theorem record_roundtrip {ctz0 : Nat} (h0 : 8 ≤ ctz0) (j : Byte × Byte × Byte × Byte) {n : Network} (hn : Built ctz0 n) (hf : n.flags.toNat < 2 ^ 16)
    (a : Addr) (p : Nat) (hp : p ≤ 128) (hv : IsV4 a → 96 ≤ p) :
    ∃ m, networkFromRecord a p (netRecord j n) = .ok (.got m) ∧ Block m ∧ m.pfx = p ∧ (∀ b, Contains m b ↔ AgreeOn p a b) ∧ props m = props n := by
  have hc := (built_ok ctz0 h0 hn).2
  have hv' : isV4Mapped a = true → 96 ≤ p := fun h => hv ((isV4Mapped_iff a).mp h)
  obtain ⟨m, h1, h2, h3, h4, h5, h6⟩ := newNetwork_ok a (p - famStart a) (by unfold famStart; split <;> omega)
  have hfs : famStart a + (p - famStart a) = p := by
    unfold famStart
    cases hm : isV4Mapped a with
    | false => simp
    | true => have := hv' hm; simp; omega
  rw [hfs] at h3 h4
  let k : Network := { m with cc0 := n.cc0, cc1 := n.cc1, asn := n.asn, flags := n.flags }
  have hk : Block k := h2.with_props _ _ _ _
  have hck : CountryOk k := hc
  have hpk : path k = (bits a).take p := h4
  have hrec : netRecord j n = netRecord j k := rfl
  refine ⟨readBack k, ?_, readBack_block hk, h3, ?_, ?_⟩
  · rw [hrec, show p = k.pfx from h3.symm]
    exact networkFromRecord_ok j hk hck (by rw [hpk]; exact List.take_prefix _ _) (fun h => by rw [show k.pfx = p from h3]; exact hv' h)
  · intro b
    rw [contains_iff_path (readBack_block hk), readBack_path, hpk, isPrefix_bits_iff _ _ (by simp), natOfBits_take _ _ hp]
    simp only [List.length_take, length_bits, Nat.min_eq_left hp, AgreeOn]
  · exact (readBack_props (n := k) hf).trans rfl

/-- A record of 10.0.0.0/8 in DE, AS 65000, read at 10.1.2.3 and 104 bits. -/
example : networkFromRecord (ip4 10 1 2 3) 104 (netRecord (1, 2, 3, 4) net10_8) = .ok (.got net10_8) := by decide +kernel

/-! ## C13 -/

/-- The walk over the nodes of a written file, bit by bit, reaches a node exactly for the prefixes of stored
    networks (and the root); the node holds the network with exactly these bits, if there is one, with
    its properties; every stored network has a record of its own. -/
theorem trie_encodes {K : Type} {ctz0 : Nat} (h0 : 8 ≤ ctz0) {key1 key2 : Option K} {ops : List (WOp K)} {e : WEnv K}
    {w : Writer K} {f : Bytes} (h : Written ctz0 key1 key2 ops e w f) :
    (∀ u, (walk f u 0).isSome ↔ u = [] ∨ ∃ n ∈ w.networks.networks, u <+: prefixBits n) ∧
    (∀ u i, walk f u 0 = some i → nodeWord f i 2 = 0xffffffff → ∀ n ∈ w.networks.networks, prefixBits n ≠ u) ∧
    (∀ u i, walk f u 0 = some i → nodeWord f i 2 ≠ 0xffffffff → ∃ n ∈ w.networks.networks, prefixBits n = u ∧
      nodeWord f i 2 < word f 40 / 12 ∧
      recordProps f (nodeWord f i 2) = ((props n).1, n.asn, BitVec.ofNat 32 (n.flags.toNat % 2 ^ 16))) ∧
    (∀ u v i j, walk f u 0 = some i → walk f v 0 = some j → nodeWord f i 2 = nodeWord f j 2 → nodeWord f i 2 ≠ 0xffffffff → u = v) ∧
    word f 40 / 12 = w.networks.networks.length := by
  obtain ⟨db, ho, hh⟩ := written_holds h0 h
  obtain ⟨recs, nets, junk, d1, d2, d3, d4, d5, d5', d6, d7, d8, d9⟩ := hh.recs
  obtain ⟨hf, o1, o2, o3, o4⟩ := open_offsets ho
  have hpb : ∀ n ∈ w.networks.networks, prefixBits n = path n := fun n hn => prefixBits_eq ((mem_networks_wf hh.wf).mp hn).1.le
  have hrec : ∀ (i : Nat) (r : NodeRec), recs[i]? = some r → r = ⟨nodeWord f i 0, nodeWord f i 1, nodeWord f i 2⟩ :=
    fun i r hr => fetchNode_words ho (d8 i r hr)
  -- walking the bytes is following the records
  have hwalk : ∀ (t : Tree) (u : List Bool) (i : Nat), Dec (fun i => recs[i]?) (fun i => nets[i]?) i t →
      walk f u i = follow (fun i => recs[i]?) u i := by
    intro t
    induction t with
    | nil => intro u i hd; exact hd.elim
    | node d net z o ihz iho =>
      intro u i hd
      cases u with
      | nil => rfl
      | cons b u =>
        obtain ⟨r, hr, hz, ho, -⟩ := hd
        have er := hrec i r hr
        have e0 : nodeWord f i 0 = r.zero := by rw [er]
        have e1 : nodeWord f i 1 = r.one := by rw [er]
        cases b with
        | false =>
          simp only [walk, follow, hr, Bool.false_eq_true, if_false, e0]
          rcases hz with ⟨rfl, e⟩ | ⟨_, e, hd⟩
          · rw [if_pos e, if_pos e]
          · rw [if_neg e, if_neg e]; exact ihz u _ hd
        | true =>
          simp only [walk, follow, hr, if_true, e1]
          rcases ho with ⟨rfl, e⟩ | ⟨_, e, hd⟩
          · rw [if_pos e, if_pos e]
          · rw [if_neg e, if_neg e]; exact iho u _ hd
  have hfollow := dec_follow w.networks 0 d1
  have hat : ∀ u i, walk f u 0 = some i → (match look w.networks u with
      | none => nodeWord f i 2 = 0xffffffff
      | some n => nets[nodeWord f i 2]? = some n) := by
    intro u i hu
    rw [hwalk _ _ _ d1] at hu
    cases hex : ex w.networks u with
    | false => rw [(hfollow u).2 hex] at hu; cases hu
    | true =>
      obtain ⟨j, h1, h2⟩ := (hfollow u).1 hex
      rw [hu] at h1
      cases h1
      obtain ⟨r, hr, hn⟩ := dec_net h2
      rw [look_sub, List.append_nil] at hn
      have er := hrec i r hr
      have e2 : nodeWord f i 2 = r.net := by rw [er]
      rw [e2]
      exact hn
  have hnone : ∀ u i, walk f u 0 = some i → (nodeWord f i 2 = 0xffffffff ↔ look w.networks u = none) := by
    intro u i hu
    have := hat u i hu
    split at this
    · rename_i hl; exact ⟨fun _ => hl, fun _ => this⟩
    · rename_i n hl
      constructor
      · intro h2
        obtain ⟨hlt, -⟩ := List.getElem?_eq_some_iff.mp this
        omega
      · intro h2; rw [h2] at hl; cases hl
  have hsome : ∀ u i, walk f u 0 = some i → nodeWord f i 2 ≠ 0xffffffff → ∃ n, look w.networks u = some n ∧ nets[nodeWord f i 2]? = some n := by
    intro u i hu hne
    have := hat u i hu
    split at this
    · exact absurd this hne
    · rename_i n hl; exact ⟨n, hl, this⟩
  refine ⟨?_, ?_, ?_, ?_, ?_⟩
  · intro u
    rw [hwalk _ _ _ d1]
    have hp := prunedRoot_ex hh.wf hh.pruned u
    have hiff : (follow (fun i => recs[i]?) u 0).isSome ↔ ex w.networks u = true := by
      cases hex : ex w.networks u with
      | false => rw [(hfollow u).2 hex]; simp
      | true => obtain ⟨j, h1, -⟩ := (hfollow u).1 hex; rw [h1]; simp
    rw [hiff, hp]
    constructor
    · rintro (h | ⟨n, hn, hu⟩)
      · exact .inl h
      · exact .inr ⟨n, hn, by rw [hpb n hn]; exact hu⟩
    · rintro (h | ⟨n, hn, hu⟩)
      · exact .inl h
      · exact .inr ⟨n, hn, by rw [← hpb n hn]; exact hu⟩
  · intro u i hu hnn n hn hp
    rw [hpb n hn] at hp
    have := ((mem_networks_wf hh.wf).mp hn).2
    rw [hp, (hnone u i hu).mp hnn] at this
    cases this
  · intro u i hu hne
    obtain ⟨n, hl, hN⟩ := hsome u i hu hne
    obtain ⟨hb, hpth⟩ := look_block hh.wf hl
    have hmem : n ∈ w.networks.networks := (mem_networks _ _).mpr ⟨u, hl⟩
    refine ⟨n, hmem, by rw [hpb n hmem, hpth], ?_, ?_⟩
    · rw [← o4, d4]; exact (List.getElem?_eq_some_iff.mp hN).1
    · have hfirst : isV4Mapped n.first = true → 96 ≤ n.pfx := by
        intro hv
        exact block_v4_pfx hb (hb.fam.mpr ((isV4Mapped_iff _).mp hv))
      have hget := d9 _ n n.first n.pfx hN
      rw [networkFromRecord_ok _ hb (hh.country n hmem) ((contains_iff_path hb _).mp (first_contains hb)) hfirst] at hget
      rw [fetchNetwork_props ho hget]
      unfold props readBack
      simp only [Prod.mk.injEq, and_true]
      by_cases hz : n.cc0 = 0
      · rw [if_pos hz, if_pos hz]
      · rw [if_neg hz, if_neg hz, if_neg hz]
  · intro u v i j hu hv heq hne
    obtain ⟨n, hl, hN⟩ := hsome u i hu hne
    obtain ⟨n', hl', hN'⟩ := hsome v j hv (heq ▸ hne)
    rw [heq, hN'] at hN
    cases hN
    rw [← (look_block hh.wf hl).2, (look_block hh.wf hl').2]
  · rw [← o4, d4, d7.length_eq]

/-- In the example file the walk along 10.1.0.0/16 goes on below 10.0.0.0/8 and both have records. -/
example : ∃ w f, Written 32 none none demoOps demoEnv w f ∧ (walk f (prefixBits net10_8) 0).isSome ∧
    (walk f (prefixBits net10_1_16) 0).isSome ∧ ¬ (walk f ((prefixBits net10_1_16) ++ [false]) 0).isSome ∧ word f 40 / 12 = 2 := by
  obtain ⟨w, f, db, hw, -, hl⟩ := demo_file
  obtain ⟨h1, -, -, -, h5⟩ := trie_encodes (by decide) hw
  rw [hl] at h5
  refine ⟨w, f, hw, (h1 _).mpr (.inr ⟨net10_8, by rw [hl]; decide, List.prefix_refl _⟩),
    (h1 _).mpr (.inr ⟨net10_1_16, by rw [hl]; decide, List.prefix_refl _⟩), ?_, h5⟩
  rw [h1, hl]
  decide +kernel

end Loc.Props
