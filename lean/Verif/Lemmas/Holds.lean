import Verif.Lemmas.Written
import Verif.Lemmas.BfsIx
/-
What a reader needs to know about a database that holds a tree, and reading network records back.
-/
namespace Loc
open Spec

/-- A network as it is read back: the second byte of an empty country code and the upper 16 flag bits are lost. -/
def readBack (n : Network) : Network :=
  { n with cc1 := if n.cc0 = 0 then 0 else n.cc1, flags := BitVec.ofNat 32 (n.flags.toNat % 2 ^ 16) }

theorem readBack_block {n : Network} (h : Block n) : Block (readBack n) := ⟨h.le, h.aligned, h.last_eq, h.fam⟩
theorem readBack_path (n : Network) : path (readBack n) = path n := rfl

theorem readBack_props {n : Network} (hf : n.flags.toNat < 2 ^ 16) : props (readBack n) = props n := by
  unfold props readBack
  rw [Nat.mod_eq_of_lt hf]
  by_cases h : n.cc0 = 0
  · simp only [if_pos h, BitVec.ofNat_toNat, BitVec.setWidth_eq]
  · simp only [if_neg h, BitVec.ofNat_toNat, BitVec.setWidth_eq]

theorem readBack_countryOk {n : Network} (h : CountryOk n) : CountryOk (readBack n) := by
  rcases h with h | h
  · exact .inl h
  · have := (validCC_ne_zero h).1
    exact .inr (by simp only [readBack, if_neg this]; exact h)

/-- Reading a record at an address of the network. -/
theorem networkFromRecord_ok (j : Byte × Byte × Byte × Byte) {n : Network} (hb : Block n) (hc : CountryOk n) {a : Addr}
    (ha : path n <+: bits a) (hv : isV4Mapped a = true → 96 ≤ n.pfx) :
    networkFromRecord a n.pfx (netRecord j n) = .ok (.got (readBack n)) := by
  have hle := hb.le
  have hfs : famStart a + (if isV4Mapped a then (n.pfx + 2 ^ 32 - 96) % 2 ^ 32 else n.pfx) = n.pfx := by
    unfold famStart
    cases hm : isV4Mapped a with
    | false => simp
    | true => have := hv hm; simp; omega
  obtain ⟨m, h1, h2, h3, h4, h5, h6⟩ := newNetwork_ok a (if isV4Mapped a then (n.pfx + 2 ^ 32 - 96) % 2 ^ 32 else n.pfx) (by rw [hfs]; exact hle)
  rw [hfs] at h3 h4
  have hsame : SameBlock m n := by
    rw [sameBlock_iff_path h2 hb, h4]
    rw [List.prefix_iff_eq_take, length_path hle] at ha
    exact ha.symm
  obtain ⟨s1, s2, s3, s4⟩ := sameBlock_fields h2 hb hsame
  have f4 : field (netRecord j n) 4 4 = n.asn.toNat := by
    have := field_at [n.cc0, n.cc1, j.1, j.2.1] (be32 n.asn.toNat) (be16 n.flags.toNat ++ [j.2.2.1, j.2.2.2]) 4 4 rfl rfl
    have e : netRecord j n = [n.cc0, n.cc1, j.1, j.2.1] ++ (be32 n.asn.toNat ++ (be16 n.flags.toNat ++ [j.2.2.1, j.2.2.2])) := by
      simp only [netRecord, List.append_assoc]
    rw [e]
    rw [this, beVal_be32, Nat.mod_eq_of_lt n.asn.isLt]
  have f8 : field (netRecord j n) 8 2 = n.flags.toNat % 2 ^ 16 := by
    have := field_at ([n.cc0, n.cc1, j.1, j.2.1] ++ be32 n.asn.toNat) (be16 n.flags.toNat) [j.2.2.1, j.2.2.2] 8 2 rfl rfl
    have e : netRecord j n = ([n.cc0, n.cc1, j.1, j.2.1] ++ be32 n.asn.toNat) ++ (be16 n.flags.toNat ++ [j.2.2.1, j.2.2.2]) := by
      simp only [netRecord, List.append_assoc]
    rw [e]
    rw [this, beVal_be16]
  have hcc : setCountryCode m (some (ccString n.cc0 n.cc1)) = .ok { m with cc0 := n.cc0, cc1 := if n.cc0 = 0 then 0 else n.cc1 } := by
    obtain ⟨c0, c1, -, -⟩ := h6
    by_cases h : n.cc0 = 0
    · rw [ccString, if_pos h, if_pos h, h]
      show Except.ok { m with cc0 := 0 } = _
      rw [← c1]
    · have hvalid : ValidCC [n.cc0, n.cc1] := by
        rcases hc with hc | hc
        · exact absurd hc h
        · exact hc
      rw [ccString, if_neg h, if_neg (validCC_ne_zero hvalid).2, if_neg h]
      have hv' := (ccIsValid_iff _).mpr hvalid
      unfold setCountryCode
      simp only [hv', Bool.not_true, Bool.false_eq_true, if_false]
  have key : networkFromRecord a n.pfx (netRecord j n) =
      (let p := if isV4Mapped a then (n.pfx + 2 ^ 32 - 96) % 2 ^ 32 else n.pfx
       match newNetwork a p with
       | .error _ => .ok .soft
       | .ok m =>
         match setCountryCode m (some (ccString n.cc0 n.cc1)) with
         | .error _ => .ok .hard
         | .ok m => .ok (.got (setFlag (setAsn m (BitVec.ofNat 32 (field (netRecord j n) 4 4))) (BitVec.ofNat 32 (field (netRecord j n) 8 2))))) := rfl
  rw [key, f4, f8]
  simp only [h1, hcc]
  congr 2
  obtain ⟨c0, c1, c2, c3⟩ := h6
  unfold setFlag setAsn readBack
  cases m; cases n
  simp only at *
  subst s1 s2 s3 s4 c3
  simp

/-- Reading a record of a short network at an IPv4 address: the prefix is out of range. -/
theorem networkFromRecord_soft (j : Byte × Byte × Byte × Byte) (n : Network) {a : Addr} {p : Nat} (hv : isV4Mapped a = true) (hp : p < 96) :
    networkFromRecord a p (netRecord j n) = .ok .soft := by
  have key : networkFromRecord a p (netRecord j n) =
      (let p := if isV4Mapped a then (p + 2 ^ 32 - 96) % 2 ^ 32 else p
       match newNetwork a p with
       | .error _ => .ok .soft
       | .ok m =>
         match setCountryCode m (some (ccString n.cc0 n.cc1)) with
         | .error _ => .ok .hard
         | .ok m => .ok (.got (setFlag (setAsn m (BitVec.ofNat 32 (field (netRecord j n) 4 4))) (BitVec.ofNat 32 (field (netRecord j n) 8 2))))) := rfl
  rw [key, hv, if_pos rfl]
  have : newNetwork a ((p + 2 ^ 32 - 96) % 2 ^ 32) = .error (.err EINVAL) := by
    apply newNetwork_err
    unfold famStart
    omega
  simp only [this]

/-- The nodes of an opened database. -/
def nodeAt (db : Db) (i : Nat) : Option NodeRec :=
  match fetchNode db i with
  | .ok (some r) => some r
  | _ => none

/-- An opened database that holds a tree. -/
structure Holds (db : Db) (t : Tree) : Prop where
  wf : WF t
  country : ∀ n ∈ t.networks, CountryOk n
  pruned : PrunedRoot t
  inj : (ixs (nodeAt db) 0 t).Nodup
  recs : ∃ (recs : List NodeRec) (nets : List Network) (junk : Nat → Byte × Byte × Byte × Byte),
    Dec (fun i => recs[i]?) (fun i => nets[i]?) 0 t ∧
    recs.length = t.size ∧ db.nodeCount = recs.length ∧ db.netCount = nets.length ∧ nets.length < 0xffffffff ∧
    recs.length < 2 ^ 31 ∧
    (∀ r ∈ recs, r.zero < recs.length ∧ r.one < recs.length ∧ (r.net = 0xffffffff ∨ r.net < nets.length)) ∧
    nets.Perm t.networks ∧
    (∀ (i : Nat) (r : NodeRec), recs[i]? = some r → fetchNode db i = .ok (some r)) ∧
    (∀ (i : Nat) (n : Network) (a : Addr) (p : Nat), nets[i]? = some n →
      fetchNetwork db a p i = networkFromRecord a p (netRecord (junk i) n))

theorem Written.ctz {K : Type} {ctz0 : Nat} {key1 key2 : Option K} {ops : List (WOp K)} {e : WEnv K}
    {w : Writer K} {f : Bytes} (h : Written ctz0 key1 key2 ops e w f) : e.ctz0 = ctz0 := by
  obtain ⟨_, _, _, _, he, _⟩ := h; exact he

theorem written_holds {K : Type} {ctz0 : Nat} (h0 : 8 ≤ ctz0) {key1 key2 : Option K} {ops : List (WOp K)} {e : WEnv K}
    {w : Writer K} {f : Bytes} (h : Written ctz0 key1 key2 ops e w f) : ∃ db, dbOpen f = .ok db ∧ Holds db w.networks := by
  obtain ⟨w0, s, sig1, sig2, tail, db, hw0, v, hi, -, -, hcl, -⟩ := written_view h0 h
  have hlen := Written.len h
  obtain ⟨hwf, hcc⟩ := Props.reach_wf ctz0 h0 hi.reach
  obtain ⟨hwf0, -⟩ := Props.reach_wf ctz0 h0 (winv hw0).reach
  obtain ⟨t1, t2, t3, c1, -, -, -, -, -, -, -, -, -, -, c2⟩ := treeCleanup_spec e.ctz0 (by rw [Written.ctz h]; exact h0) e.reread hwf0
  rw [c1] at hcl
  cases hcl
  have hne : w.networks ≠ .nil := by
    intro hn
    rw [hn] at c2
    exact c2
  obtain ⟨recs, nets, r1, r2, r3, r4, r5⟩ := v.tree
  obtain ⟨recs', nets', b1, b2, b3, b4, b5⟩ := bfs_spec hne
  rw [r1] at b1
  cases b1
  obtain ⟨l1, l2, l3, l4⟩ := v.lens
  obtain ⟨_, _, fT, lT⟩ := v.layout.tree
  obtain ⟨_, _, fN, lN⟩ := v.layout.nets
  have sT : s.tree.length ≤ f.length := by rw [fT, List.length_append, List.length_append]; omega
  have sN : s.nets.length ≤ f.length := by rw [fN, List.length_append, List.length_append]; omega
  have hinj : (ixs (nodeAt db) 0 w.networks).Nodup := by
    rw [ixs_mono (R := fun i => recs[i]?) (fun i r h => by unfold nodeAt; rw [r4 i r h]) _ _ b2]
    exact bfs_ixs hne r1
  exact ⟨db, v.opened, hwf, hcc, c2, hinj, recs, nets, e.junk, b2, b3, r2, r3, by omega, by omega, b5, b4, r4, r5⟩

end Loc
