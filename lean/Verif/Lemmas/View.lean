import Verif.Lemmas.Writer
/-
What the reader sees in a file that was written.
-/
namespace Loc
open Spec

/-- A country as it is read back. -/
def storedCountry (c : Country) : Country :=
  { c with k0 := if c.k0 ≠ 0 then c.k0 else 0, k1 := if c.k0 ≠ 0 then c.k1 else 0, name := some (c.name.getD []) }

/-- The database `db` opened from the file `f` that was written with environment `e` by a writer that
    holds `w` afterwards. -/
structure View {K : Type} (e : WEnv K) (w : Writer K) (s : Sections) (sig1 sig2 tail : Bytes) (f : Bytes) (db : Db) : Prop where
  layout : Layout f s (makeHeader e w s) sig1 sig2 tail
  opened : dbOpen f = .ok db
  file : db.file = f
  created : db.createdAt = e.now % 2 ^ 64
  strings : ∃ ss, PoolOk w.pool ([] :: ss) ∧ s.pool = joinStr ([] :: ss) ∧
    (∀ off x, At ([] :: ss) off x → dbString db off = .ok (some x))
  vendor : db.vendor = w.vendor % 2 ^ 32
  description : db.description = w.description % 2 ^ 32
  license : db.license = w.license % 2 ^ 32
  poolOff : db.poolOff = poolOffset s
  poolLen : db.poolLen = s.pool.length
  asCount : db.asCount = w.ases.length
  ases : ∀ (i : Nat) (a : AS), w.ases[i]? = some a → fetchAs db i = .ok (some ⟨a.number, some (a.name.getD [])⟩)
  countryCount : db.countryCount = w.countries.length
  countries : ∀ (i : Nat) (c : Country), (leaked e.junkContinent w.countries)[i]? = some c →
    fetchCountry db i = .ok (some (storedCountry c))
  tree : ∃ recs nets, bfsLoop (w.networks.size + 1) [w.networks] 0 0 = .ok (recs, nets) ∧
    db.nodeCount = recs.length ∧ db.netCount = nets.length ∧
    (∀ (i : Nat) (r : NodeRec), recs[i]? = some r → fetchNode db i = .ok (some r)) ∧
    (∀ (i : Nat) (n : Network) (a : Addr) (p : Nat), nets[i]? = some n →
      fetchNetwork db a p i = networkFromRecord a p (netRecord (e.junk i) n))
  lens : s.ases.length = w.ases.length * 8 ∧ s.tree.length = db.nodeCount * 12 ∧ s.nets.length = db.netCount * 12 ∧
    s.countries.length = w.countries.length * 8
  sig1 : db.sig1Off = 72 ∧ db.sig1Len = sig1.length
  sig2 : db.sig2Off = 72 + sigMax ∧ db.sig2Len = sig2.length

theorem fetchAs_at {db : Db} {pre post : Bytes} {recs : List Bytes} (hr : Records asSize recs)
    (hf : db.file = pre ++ (recs.flatten ++ post)) (hs : db.file.length < 2 ^ 32) (ho : db.asOff = pre.length) (hc : db.asCount = recs.length)
    {i : Nat} {number : BitVec 32} {off : Nat} {name : CStr} (hi : recs[i]? = some (be32 number.toNat ++ be32 off)) (hoff : off < 2 ^ 32)
    (hn : dbString db off = .ok (some name)) : fetchAs db i = .ok (some ⟨number, some name⟩) := by
  obtain ⟨hlt, hget⟩ := List.getElem?_eq_some_iff.mp hi
  unfold fetchAs
  rw [if_neg (by omega)]
  have h64 : (pre ++ (recs.flatten ++ post)).length < 2 ^ 64 := by rw [← hf]; omega
  rw [hf, ho, dbObject_at hr pre post h64 hlt, hget]
  simp only
  unfold asFromRecord
  have f0 : field (be32 number.toNat ++ be32 off) 0 4 = number.toNat := by
    rw [field_head32, beVal_be32]; have := number.isLt; omega
  have f1 : field (be32 number.toNat ++ be32 off) 4 4 = off := by
    rw [field_skip32 _ _ _ _ (Nat.le_refl _)]
    have := field_head32 off []
    rw [List.append_nil] at this
    rw [show (4 - 4 : Nat) = 0 from rfl, this, beVal_be32]; omega
  rw [f0, f1, hn]
  simp

theorem fetchCountry_at {db : Db} {pre post : Bytes} {recs : List Bytes} (hr : Records countrySize recs)
    (hf : db.file = pre ++ (recs.flatten ++ post)) (hs : db.file.length < 2 ^ 32) (ho : db.countryOff = pre.length) (hc : db.countryCount = recs.length)
    {i : Nat} {c : Country} {off : Nat} (hv : ccIsValid (some [c.c0, c.c1]) = true)
    (hi : recs[i]? = some ([c.c0, c.c1, c.k0, c.k1] ++ be32 off)) (hoff : off < 2 ^ 32)
    (hn : dbString db off = .ok (some (c.name.getD []))) : fetchCountry db i = .ok (some (storedCountry c)) := by
  obtain ⟨hlt, hget⟩ := List.getElem?_eq_some_iff.mp hi
  unfold fetchCountry
  rw [if_neg (by omega)]
  have h64 : (pre ++ (recs.flatten ++ post)).length < 2 ^ 64 := by rw [← hf]; omega
  rw [hf, ho, dbObject_at hr pre post h64 hlt, hget]
  simp only
  have f1 : field ([c.c0, c.c1, c.k0, c.k1] ++ be32 off) 4 4 = off := by
    have := field_skip [c.c0, c.c1, c.k0, c.k1] (be32 off) 4 4 (Nat.le_refl _)
    rw [this]
    have := field_head32 off []
    rw [List.append_nil] at this
    show field (be32 off) 0 4 = off
    rw [this, beVal_be32]; omega
  have hnz := valid_ne_zero hv
  have hnew : countryNew (some (ccString c.c0 c.c1)) = .ok ⟨c.c0, c.c1, 0, 0, none⟩ := by
    rw [ccString_ne hnz.1 hnz.2]; unfold countryNew; rw [hv]; rfl
  simp only [List.cons_append, List.nil_append] at f1 ⊢
  unfold countryFromRecord
  simp only
  rw [hnew, f1, hn]
  simp only [storedCountry]
  by_cases hk : c.k0 ≠ 0
  · simp only [if_pos hk]
  · simp only [if_neg hk]

theorem leaked_length (prev : Byte × Byte) (l : List Country) : (leaked prev l).length = l.length := by
  induction l generalizing prev with
  | nil => rfl
  | cons c l ih =>
    unfold leaked
    split <;> simp [ih]

/-- A leaked country differs from the original in the continent code only. -/
theorem leaked_getElem {prev : Byte × Byte} {l : List Country} {i : Nat} {c : Country} (h : (leaked prev l)[i]? = some c) :
    ∃ d, l[i]? = some d ∧ c.c0 = d.c0 ∧ c.c1 = d.c1 ∧ c.name = d.name ∧ (d.k0 ≠ 0 → c = d) := by
  induction l generalizing prev i with
  | nil => simp [leaked] at h
  | cons x l ih =>
    unfold leaked at h
    split at h
    · rename_i hx
      cases i with
      | zero => simp at h; subst h; exact ⟨x, by simp, rfl, rfl, rfl, fun _ => rfl⟩
      | succ i => simpa using ih (by simpa using h)
    · rename_i hx
      cases i with
      | zero =>
        simp only [List.getElem?_cons_zero, Option.some.injEq] at h; subst h
        exact ⟨x, by simp, rfl, rfl, rfl, fun hne => absurd hne hx⟩
      | succ i => simpa using ih (by simpa using h)

theorem fetchNode_at {db : Db} {pre post : Bytes} {recs : List NodeRec}
    (hf : db.file = pre ++ ((recs.map nodeBytes).flatten ++ post)) (hs : db.file.length < 2 ^ 32) (ho : db.nodeOff = pre.length)
    {i : Nat} {r : NodeRec} (hi : recs[i]? = some r) (hb : r.zero < 2 ^ 32 ∧ r.one < 2 ^ 32 ∧ r.net < 2 ^ 32) :
    fetchNode db i = .ok (some r) := by
  obtain ⟨hlt, hget⟩ := List.getElem?_eq_some_iff.mp hi
  unfold fetchNode
  have h64 : (pre ++ ((recs.map nodeBytes).flatten ++ post)).length < 2 ^ 64 := by rw [← hf]; omega
  rw [hf, ho, dbObject_at (records_nodes recs) pre post h64 (by simpa using hlt)]
  simp only [List.getElem_map, hget, nodeFromRecord_nodeBytes r hb]

theorem fetchNetwork_at {db : Db} {pre post : Bytes} {recs : List Bytes} (hr : Records netSize recs)
    (hf : db.file = pre ++ (recs.flatten ++ post)) (hs : db.file.length < 2 ^ 32) (ho : db.netOff = pre.length) (hc : db.netCount = recs.length)
    {i : Nat} {b : Bytes} (hi : recs[i]? = some b) (a : Addr) (p : Nat) : fetchNetwork db a p i = networkFromRecord a p b := by
  obtain ⟨hlt, hget⟩ := List.getElem?_eq_some_iff.mp hi
  unfold fetchNetwork
  rw [if_neg (by omega)]
  have h64 : (pre ++ (recs.flatten ++ post)).length < 2 ^ 64 := by rw [← hf]; omega
  rw [hf, ho, dbObject_at hr pre post h64 hlt, hget]

theorem ne_nil_of_reach {ctz0 : Nat} (h0 : 8 ≤ ctz0) {t : Tree} (h : Reach ctz0 t) : t ≠ .nil := by
  have := (Props.reach_wf ctz0 h0 h).1
  rintro rfl
  exact this.alive

theorem write_view {K : Type} {ctz0 : Nat} (h0 : 8 ≤ ctz0) {key1 key2 : Option K} {ops : List (WOp K)} {w w1 : Writer K}
    (h : WInv ctz0 key1 key2 ops w) {e : WEnv K} (he : e.ctz0 = ctz0) {s : Sections} (hs : writeSections e w = .ok (s, w1))
    {sig1 sig2 tail f : Bytes} (l1 : sig1.length ≤ sigMax) (l2 : sig2.length ≤ sigMax)
    (hf : f = magic ++ headerBytes (makeHeader e w1 s) sig1 sig2 ++ (bodyBytes s ++ tail)) (hsize : f.length < 2 ^ 32) :
    ∃ db, View e w1 s sig1 sig2 tail f db := by
  have hinv1 := writeSections_inv h he hs
  obtain ⟨ss, p1, p2, p3, p4⟩ := h.pool
  have hperm := asListSort_perm w.ases
  have hnames : ∀ a ∈ asListSort w.ases, StrOk a.name := fun a ha => h.names a (hperm.subset ha)
  unfold writeSections at hs
  simp only at hs
  split at hs
  · cases hs
  rename_i asBytes pool1 h1
  split at hs
  · cases hs
  rename_i t h2
  split at hs
  · cases hs
  rename_i recs nets h3
  split at hs
  · cases hs
  rename_i ctBytes pool2 h4
  simp only [Except.ok.injEq, Prod.mk.injEq] at hs
  obtain ⟨rfl, rfl⟩ := hs
  obtain ⟨arecs, s1, a1, a2, a3, a4, a5⟩ := writeAses_spec _ p1 hnames h1
  obtain ⟨crecs, s2, c1, c2, c3, c4, c5⟩ := writeCountries_spec _ a4 (by simp) (fun c hc => (h.cgood c hc).name) h4
  have htne : t ≠ .nil := ne_nil_of_reach h0 hinv1.reach
  obtain ⟨recs', nets', b1, b2, b3, b4, b5⟩ := bfs_spec htne
  rw [h3] at b1
  cases b1
  obtain ⟨nrecs, n1, n2, n3, n4⟩ := netRecords_eq e.junk nets 0
  generalize hS : (⟨asBytes, recs.flatMap nodeBytes, netRecords e.junk 0 nets, ctBytes, pool2.data⟩ : Sections) = S at *
  have hSa : S.ases = arecs.flatten := by rw [← hS, ← a1]
  have hSt : S.tree = (recs.map nodeBytes).flatten := by rw [← hS]; simp [List.flatMap]
  have hSn : S.nets = nrecs.flatten := by rw [← hS, ← n1]
  have hSc : S.countries = crecs.flatten := by rw [← hS, ← c1]
  have hSp : S.pool = joinStr ([] :: (ss ++ s1 ++ s2)) := by rw [← hS]; simpa using c4.data
  generalize hW : ({ w with ases := asListSort w.ases, networks := t, pool := pool2 } : Writer K) = W at *
  have hWp : W.pool = pool2 := by rw [← hW]
  have hWa : W.ases = asListSort w.ases := by rw [← hW]
  have hWc : W.countries = w.countries := by rw [← hW]
  have hWt : W.networks = t := by rw [← hW]
  have hlay : Layout f S (makeHeader e W S) sig1 sig2 tail := ⟨hf, l1, l2⟩
  have hpo : (makeHeader e W S).poolOff + (makeHeader e W S).poolLen ≤ f.length := by
    obtain ⟨pre, hp, hl⟩ := hlay.pool
    show poolOffset S + S.pool.length ≤ f.length
    rw [hp, List.length_append, List.length_append, hl]; omega
  have hopen := open_spec hlay hsize hpo
  -- the sections
  obtain ⟨preA, postA, fA, lA⟩ := hlay.ases
  obtain ⟨preT, postT, fT, lT⟩ := hlay.tree
  obtain ⟨preN, postN, fN, lN⟩ := hlay.nets
  obtain ⟨preC, postC, fC, lC⟩ := hlay.countries
  obtain ⟨preP, fP, lP⟩ := hlay.pool
  have sA : asOffset + S.ases.length ≤ f.length := by rw [fA, List.length_append, List.length_append, lA]; omega
  have sT : treeOffset S + S.tree.length ≤ f.length := by rw [fT, List.length_append, List.length_append, lT]; omega
  have sN : netOffset S + S.nets.length ≤ f.length := by rw [fN, List.length_append, List.length_append, lN]; omega
  have sC : countryOffset S + S.countries.length ≤ f.length := by rw [fC, List.length_append, List.length_append, lC]; omega
  have sP : poolOffset S + S.pool.length ≤ f.length := hpo
  have eA : (makeHeader e W S).asOff % 2 ^ 32 = preA.length := by
    show asOffset % 2 ^ 32 = _; rw [lA]; exact Nat.mod_eq_of_lt (by omega)
  have eT : (makeHeader e W S).treeOff % 2 ^ 32 = preT.length := by
    show treeOffset S % 2 ^ 32 = _; rw [lT]; exact Nat.mod_eq_of_lt (by omega)
  have eN : (makeHeader e W S).netOff % 2 ^ 32 = preN.length := by
    show netOffset S % 2 ^ 32 = _; rw [lN]; exact Nat.mod_eq_of_lt (by omega)
  have eC : (makeHeader e W S).countryOff % 2 ^ 32 = preC.length := by
    show countryOffset S % 2 ^ 32 = _; rw [lC]; exact Nat.mod_eq_of_lt (by omega)
  have nA : (makeHeader e W S).asLen % 2 ^ 32 / asSize = arecs.length := by
    show S.ases.length % 2 ^ 32 / asSize = _
    rw [Nat.mod_eq_of_lt (by omega), hSa, records_length a2, Nat.mul_div_cancel _ (by decide)]
  have nT : (makeHeader e W S).treeLen % 2 ^ 32 / nodeSize = recs.length := by
    show S.tree.length % 2 ^ 32 / nodeSize = _
    rw [Nat.mod_eq_of_lt (by omega), hSt, records_length (records_nodes recs), Nat.mul_div_cancel _ (by decide), List.length_map]
  have nN : (makeHeader e W S).netLen % 2 ^ 32 / netSize = nets.length := by
    show S.nets.length % 2 ^ 32 / netSize = _
    rw [Nat.mod_eq_of_lt (by omega), hSn, records_length n2, Nat.mul_div_cancel _ (by decide), n3]
  have nC : (makeHeader e W S).countryLen % 2 ^ 32 / countrySize = crecs.length := by
    show S.countries.length % 2 ^ 32 / countrySize = _
    rw [Nat.mod_eq_of_lt (by omega), hSc, records_length c2, Nat.mul_div_cancel _ (by decide)]
  have hTl : recs.length * 12 ≤ f.length := by
    have : S.tree.length = recs.length * 12 := by
      rw [hSt, records_length (records_nodes recs), List.length_map]; rfl
    omega
  have hNl : nets.length * 12 ≤ f.length := by
    have : S.nets.length = nets.length * 12 := by
      rw [hSn, records_length n2, n3]; rfl
    omega
  rw [eA, eT, eN, eC, nA, nT, nN, nC] at hopen
  refine ⟨_, hlay, hopen, rfl, rfl, ?_, rfl, rfl, rfl, rfl, rfl, ?_, ?_, ?_, ?_, ?_, ?_, ⟨rfl, rfl⟩, ⟨rfl, rfl⟩⟩
  · refine ⟨ss ++ s1 ++ s2, by rw [hWp]; simpa using c4, hSp, ?_⟩
    intro off x hx
    refine dbString_at (ss := [] :: (ss ++ s1 ++ s2)) (by simpa using c4.nul) (pre := preP) (post := tail) ?_ lP.symm ?_ hx
    · show f = _
      rw [fP, hSp]
    · show S.pool.length = _
      rw [hSp]
  · show arecs.length = W.ases.length
    rw [a3, hWa]
  · intro i a ha
    rw [hWa] at ha
    obtain ⟨off, o1, o2⟩ := a5 i a ha
    have o2' : At ([] :: (ss ++ s1 ++ s2)) off (a.name.getD []) := by simpa using o2.append s2
    have hlt := o2'.lt
    rw [← hSp] at hlt
    refine fetchAs_at a2 (pre := preA) (post := postA) ?_ hsize rfl rfl o1 (by omega) ?_
    · show f = _
      rw [fA, hSa]
    · refine dbString_at (ss := [] :: (ss ++ s1 ++ s2)) (by simpa using c4.nul) (pre := preP) (post := tail) ?_ lP.symm ?_ o2'
      · show f = _
        rw [fP, hSp]
      · show S.pool.length = _
        rw [hSp]
  · show crecs.length = W.countries.length
    rw [c3, hWc]
  · intro i c hc
    rw [hWc] at hc
    obtain ⟨d, d1, d2, d3, -, -⟩ := leaked_getElem hc
    have hgood := h.cgood d (List.mem_of_getElem? d1)
    obtain ⟨off, o1, o2⟩ := c5 i c hc
    have o2' : At ([] :: (ss ++ s1 ++ s2)) off (c.name.getD []) := by simpa using o2
    have hlt := o2'.lt
    rw [← hSp] at hlt
    refine fetchCountry_at c2 (pre := preC) (post := postC) ?_ hsize rfl rfl (by rw [d2, d3]; exact hgood.code) o1 (by omega) ?_
    · show f = _
      rw [fC, hSc]
    · refine dbString_at (ss := [] :: (ss ++ s1 ++ s2)) (by simpa using c4.nul) (pre := preP) (post := tail) ?_ lP.symm ?_ o2'
      · show f = _
        rw [fP, hSp]
      · show S.pool.length = _
        rw [hSp]
  · refine ⟨recs, nets, by rw [hWt]; exact h3, rfl, rfl, ?_, ?_⟩
    · intro i r hr
      obtain ⟨q1, q2, q3⟩ := b5 r (List.mem_of_getElem? hr)
      refine fetchNode_at (pre := preT) (post := postT) ?_ hsize rfl hr ⟨by omega, by omega, ?_⟩
      · show f = _
        rw [fT, hSt]
      · rcases q3 with q3 | q3
        · rw [q3]; decide
        · omega
    · intro i n a p hi
      have := n4 i n hi
      rw [Nat.zero_add] at this
      refine fetchNetwork_at n2 (pre := preN) (post := postN) ?_ hsize rfl ?_ this a p
      · show f = _
        rw [fN, hSn]
      · exact n3.symm
  · refine ⟨?_, ?_, ?_, ?_⟩
    · rw [hSa, records_length a2, a3, hWa]; rfl
    · rw [hSt, records_length (records_nodes recs), List.length_map]; rfl
    · rw [hSn, records_length n2, n3]; rfl
    · rw [hSc, records_length c2, c3, hWc]; rfl

end Loc
