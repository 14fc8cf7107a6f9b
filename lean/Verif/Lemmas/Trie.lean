import Verif.Lemmas.Holds
import Verif.Spec.File
/-
Following the nodes of a database that holds a tree.
-/
namespace Loc
open Spec

theorem prefixBits_eq {n : Network} (h : n.pfx ≤ 128) : prefixBits n = path n := by
  unfold prefixBits path bits
  apply List.ext_getElem
  · simp [h]
  · intro i h1 h2
    simp at h1
    simp [getBit_eq_bit n.first i (by omega)]

/-- Nodes exist exactly above networks. -/
theorem pruned_ex {t : Tree} (h : Pruned t) (u : List Bool) (hu : ex t u = true) : ∃ v n, look t (u ++ v) = some n := by
  induction t generalizing u with
  | nil => simp [ex] at hu
  | node d net z o ihz iho =>
    obtain ⟨-, h1, hz, ho⟩ := h
    cases u with
    | nil =>
      rcases h1 with h1 | h1 | h1
      · obtain ⟨n, rfl⟩ := Option.isSome_iff_exists.mp h1
        exact ⟨[], n, rfl⟩
      · obtain ⟨v, n, hv⟩ := ihz hz [] (by cases z with | nil => exact absurd rfl h1 | node => rfl)
        exact ⟨false :: v, n, hv⟩
      · obtain ⟨v, n, hv⟩ := iho ho [] (by cases o with | nil => exact absurd rfl h1 | node => rfl)
        exact ⟨true :: v, n, hv⟩
    | cons b u =>
      cases b with
      | false => exact ihz hz u hu
      | true => exact iho ho u hu

theorem prunedRoot_ex {t : Tree} (hw : WF t) (h : PrunedRoot t) (u : List Bool) :
    ex t u = true ↔ u = [] ∨ ∃ n ∈ t.networks, u <+: path n := by
  constructor
  · intro hu
    cases u with
    | nil => exact .inl rfl
    | cons b u =>
      right
      have : ∃ v n, look t ((b :: u) ++ v) = some n := by
        cases t with
        | nil => exact h.elim
        | node d net z o =>
          obtain ⟨-, hz, ho⟩ := h
          cases b with
          | false => exact pruned_ex hz u hu
          | true => exact pruned_ex ho u hu
      obtain ⟨v, n, hl⟩ := this
      exact ⟨n, (mem_networks t n).mpr ⟨_, hl⟩, v, (look_block hw hl).2.symm⟩
  · rintro (rfl | ⟨n, hn, hu⟩)
    · exact ex_root hw
    · exact ex_prefix hu (look_ex ((mem_networks_wf hw).mp hn).2)

/-- The node at the end of a path. -/
def follow (R : Nat → Option NodeRec) : List Bool → Nat → Option Nat
  | [], i => some i
  | b :: bs, i =>
    match R i with
    | none => none
    | some r => if (if b then r.one else r.zero) = 0 then none else follow R bs (if b then r.one else r.zero)

theorem dec_follow {R : Nat → Option NodeRec} {N : Nat → Option Network} (t : Tree) (i : Nat) (h : Dec R N i t) (u : List Bool) :
    (ex t u = true → ∃ j, follow R u i = some j ∧ Dec R N j (t.sub u)) ∧ (ex t u = false → follow R u i = none) := by
  induction t generalizing i u with
  | nil => exact h.elim
  | node d net z o ihz iho =>
    cases u with
    | nil => exact ⟨fun _ => ⟨i, rfl, h⟩, fun h => by simp [ex] at h⟩
    | cons b u =>
      obtain ⟨r, hr, hz, ho, -⟩ := h
      cases b with
      | false =>
        rcases hz with ⟨rfl, e⟩ | ⟨_, e, hd⟩
        · refine ⟨fun h => by simp [ex] at h, fun _ => ?_⟩
          simp [follow, hr, e]
        · have := ihz r.zero hd u
          constructor
          · intro hx
            obtain ⟨j, h1, h2⟩ := this.1 hx
            exact ⟨j, by simpa [follow, hr, e] using h1, h2⟩
          · intro hx
            simpa [follow, hr, e] using this.2 hx
      | true =>
        rcases ho with ⟨rfl, e⟩ | ⟨_, e, hd⟩
        · refine ⟨fun h => by simp [ex] at h, fun _ => ?_⟩
          simp [follow, hr, e]
        · have := iho r.one hd u
          constructor
          · intro hx
            obtain ⟨j, h1, h2⟩ := this.1 hx
            exact ⟨j, by simpa [follow, hr, e] using h1, h2⟩
          · intro hx
            simpa [follow, hr, e] using this.2 hx

/-- What the record at a node says about the network there. -/
theorem dec_net {R : Nat → Option NodeRec} {N : Nat → Option Network} {t : Tree} {i : Nat} (h : Dec R N i t) :
    ∃ r, R i = some r ∧ (match look t [] with | none => r.net = 0xffffffff | some n => N r.net = some n) := by
  cases t with
  | nil => exact h.elim
  | node d net z o =>
    obtain ⟨r, hr, -, -, hn⟩ := h
    exact ⟨r, hr, hn⟩

theorem field_rd {f b : Bytes} {base k off len : Nat} (hr : rd f base k = .ok b) (hl : off + len ≤ k) : field b off len = number f (base + off) len := by
  unfold rd at hr
  split at hr
  · cases hr
    unfold field number
    rw [List.drop_take, List.take_take, List.drop_drop, Nat.min_eq_left (by omega)]
    rfl
  · cases hr

theorem dbObject_rd {f b : Bytes} {base size n : Nat} (h : dbObject f base size n = .ok (some b)) : rd f (base + n * size) size = .ok b := by
  unfold dbObject at h
  split at h
  · cases h
  split at h
  · cases h
  · rename_i b' hb; cases h; exact hb

/-- Where the sections of an opened file are. -/
theorem open_offsets {f : Bytes} {db : Db} (h : dbOpen f = .ok db) :
    db.file = f ∧ db.nodeOff = word f 44 ∧ db.nodeCount = word f 48 / 12 ∧ db.netOff = word f 36 ∧ db.netCount = word f 40 / 12 := by
  unfold dbOpen at h
  split at h
  · cases h
  unfold readHeader at h
  split at h
  · cases h
  split at h
  · cases h
  rename_i hd hrd
  split at h
  · cases h
  split at h
  · cases h
  split at h
  · cases h
  cases h
  have m : ∀ off, off + 4 ≤ headerSize → field hd off 4 = word f (magicSize + off) := fun off ho => field_rd hrd ho
  refine ⟨rfl, m 36 (by decide), ?_, m 28 (by decide), ?_⟩
  · rw [show word f 48 = field hd 40 4 from (m 40 (by decide)).symm]; rfl
  · rw [show word f 40 = field hd 32 4 from (m 32 (by decide)).symm]; rfl

theorem fetchNode_words {f : Bytes} {db : Db} (h : dbOpen f = .ok db) {i : Nat} {r : NodeRec} (hr : fetchNode db i = .ok (some r)) :
    r = ⟨nodeWord f i 0, nodeWord f i 1, nodeWord f i 2⟩ := by
  obtain ⟨hf, ho, -⟩ := open_offsets h
  unfold fetchNode at hr
  split at hr
  · cases hr
  · cases hr
  rename_i b hb
  cases hr
  rw [hf, ho] at hb
  have hb := dbObject_rd hb
  unfold nodeFromRecord
  rw [field_rd hb (by decide), field_rd hb (by decide), field_rd hb (by decide), show nodeSize = 12 from rfl, Nat.mul_comm i 12]
  rfl

theorem ccString_takeWhile (c0 c1 : Byte) : [c0, c1].takeWhile (· ≠ 0) = ccString c0 c1 := by
  unfold ccString
  by_cases h0 : c0 = 0
  · rw [if_pos h0, List.takeWhile_cons, if_neg (by simp [h0])]
  · rw [if_neg h0, List.takeWhile_cons, if_pos (by simpa using h0), List.takeWhile_cons]
    by_cases h1 : c1 = 0
    · rw [if_pos h1, if_neg (by simp [h1])]
    · rw [if_neg h1, if_pos (by simpa using h1), List.takeWhile_nil]

theorem newNetwork_clear {a : Addr} {p : Nat} {n : Network} (hn : newNetwork a p = .ok n) :
    n.cc0 = 0 ∧ n.cc1 = 0 ∧ n.asn = 0 ∧ n.flags = 0 := by
  by_cases hp : famStart a + p ≤ 128
  · obtain ⟨m, h1, -, -, -, -, h2⟩ := newNetwork_ok a p hp
    rw [hn] at h1
    cases h1
    exact h2
  · rw [newNetwork_err a p hp] at hn
    cases hn

theorem networkFromRecord_props {a : Addr} {p : Nat} {c0 c1 : Byte} {tl : Bytes} {m : Network}
    (hm : networkFromRecord a p (c0 :: c1 :: tl) = .ok (.got m)) :
    props m = (ccString c0 c1, BitVec.ofNat 32 (field (c0 :: c1 :: tl) 4 4), BitVec.ofNat 32 (field (c0 :: c1 :: tl) 8 2)) := by
  unfold networkFromRecord at hm
  simp only at hm
  split at hm
  · cases hm
  rename_i n hn
  split at hm
  · cases hm
  rename_i n' hn'
  cases hm
  obtain ⟨e0, e1, e2, e3⟩ := newNetwork_clear hn
  have hfl : n'.flags = 0 ∧ ccString n'.cc0 n'.cc1 = ccString c0 c1 := by
    rcases setCountryCode_cases hn' with ⟨h1, rfl⟩ | ⟨d0, d1, h1, h2, rfl⟩
    · have h1 : ccString c0 c1 = [] := by simpa using h1
      exact ⟨e3, by rw [h1]; rfl⟩
    · refine ⟨e3, ?_⟩
      rw [Option.some.inj h1]
      obtain ⟨g0, g1⟩ := validCC_ne_zero h2
      unfold ccString
      rw [if_neg g0, if_neg g1]
  rw [props_eq]
  unfold countryCode setFlag setAsn
  simp only [hfl.1, hfl.2]
  rw [show ∀ x : BitVec 32, 0 ||| x = x from fun x => BitVec.zero_or]

/-- The properties of a fetched network are those of its record. -/
theorem fetchNetwork_props {f : Bytes} {db : Db} (h : dbOpen f = .ok db) {a : Addr} {p j : Nat} {m : Network}
    (hm : fetchNetwork db a p j = .ok (.got m)) : recordProps f j = props m := by
  obtain ⟨hf, -, -, ho, -⟩ := open_offsets h
  unfold fetchNetwork at hm
  split at hm
  · cases hm
  split at hm
  · cases hm
  · cases hm
  rename_i b hb
  rw [hf, ho] at hb
  have hb := dbObject_rd hb
  rw [show netSize = 12 from rfl, Nat.mul_comm j 12] at hb
  have hlen : b.length = 12 ∧ b = (f.drop (word f 36 + 12 * j)).take 12 := by
    unfold rd at hb
    split at hb
    · rename_i hl
      cases hb
      refine ⟨?_, rfl⟩
      rw [List.length_take, List.length_drop]
      omega
    · cases hb
  match b, hb, hm, hlen with
  | c0 :: c1 :: tl, hb, hm, ⟨_, hl⟩ =>
    rw [networkFromRecord_props hm, field_rd hb (by decide), field_rd hb (by decide)]
    unfold recordProps
    simp only
    have : (f.drop (word f 36 + 12 * j)).take 2 = [c0, c1] := by
      have := congrArg (List.take 2) hl
      rw [List.take_take] at this
      exact this.symm
    rw [this, ccString_takeWhile]

end Loc
