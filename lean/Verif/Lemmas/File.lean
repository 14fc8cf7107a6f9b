import Verif.Lemmas.Codec
import Verif.Lemmas.Bfs
import Verif.Spec.Writer
/-
What a written file looks like to the reader.
-/
namespace Loc
open Spec

/-! ### AS records -/

theorem asRecord_spec {a : AS} {p p' : Pool} {ss : List CStr} {b : Bytes} (hp : PoolOk p ss) (hn : StrOk a.name)
    (e : asRecord a p = .ok (b, p')) :
    ∃ off ss', b = be32 a.number.toNat ++ be32 off ∧ PoolOk p' (ss ++ ss') ∧ At (ss ++ ss') off (a.name.getD []) := by
  have hs : NoNul (match a.name with | some s => s | none => []) := by
    cases h : a.name with
    | none => simp [NoNul]
    | some s => exact hn s h
  have hm : (match a.name with | some s => s | none => []) = a.name.getD [] := by cases a.name <;> rfl
  unfold asRecord at e
  split at e
  · cases e
  · rename_i off q hq
    cases e
    obtain ⟨ss', h1, h2⟩ := poolAdd_ext hp hs hq
    exact ⟨off, ss', rfl, h1, hm ▸ h2⟩

theorem writeAses_spec (l : List AS) : ∀ {p p' : Pool} {ss : List CStr} {bs : Bytes}, PoolOk p ss →
    (∀ a ∈ l, StrOk a.name) → writeAses l p = .ok (bs, p') →
    ∃ recs ss', bs = recs.flatten ∧ Records asSize recs ∧ recs.length = l.length ∧ PoolOk p' (ss ++ ss') ∧
      ∀ (i : Nat) (a : AS), l[i]? = some a → ∃ off, recs[i]? = some (be32 a.number.toNat ++ be32 off) ∧ At (ss ++ ss') off (a.name.getD []) := by
  induction l with
  | nil =>
    intro p p' ss bs hp _ e
    unfold writeAses at e; cases e
    exact ⟨[], [], rfl, fun r hr => absurd hr (by simp), rfl, by simpa using hp, by simp⟩
  | cons a l ih =>
    intro p p' ss bs hp hn e
    unfold writeAses at e
    split at e
    · cases e
    · rename_i b q hq
      split at e
      · cases e
      · rename_i bs' q' hq'
        cases e
        obtain ⟨off, s1, h1, h2, h3⟩ := asRecord_spec hp (hn a (by simp)) hq
        obtain ⟨recs, s2, k1, k2, k3, k4, k5⟩ := ih h2 (fun x hx => hn x (by simp [hx])) hq'
        refine ⟨b :: recs, s1 ++ s2, by simp [k1], ?_, by simp [k3], by simpa using k4, ?_⟩
        · intro r hr
          rcases List.mem_cons.mp hr with rfl | hr
          · rw [h1]; rfl
          · exact k2 r hr
        · intro i x hx
          cases i with
          | zero =>
            simp only [List.getElem?_cons_zero, Option.some.injEq] at hx
            subst hx
            exact ⟨off, by simp [h1], by simpa using h3.append s2⟩
          | succ i =>
            obtain ⟨o, o1, o2⟩ := k5 i x (by simpa using hx)
            exact ⟨o, by simpa using o1, by simpa using o2⟩

/-! ### Country records -/

/-- The countries as they are stored: a country without continent code gets the one that is left
    in the block. -/
def leaked : Byte × Byte → List Country → List Country
  | _, [] => []
  | prev, c :: l =>
    if c.k0 ≠ 0 then c :: leaked (c.k0, c.k1) l
    else { c with k0 := prev.1, k1 := prev.2 } :: leaked prev l

theorem countryRecord_spec {c : Country} {prev k : Byte × Byte} {p p' : Pool} {ss : List CStr} {b : Bytes}
    (hp : PoolOk p ss) (h0 : ss.head? = some []) (hn : StrOk c.name) (e : countryRecord c prev p = .ok (b, k, p')) :
    k = (if c.k0 ≠ 0 then (c.k0, c.k1) else prev) ∧
    ∃ off ss', b = [c.c0, c.c1, k.1, k.2] ++ be32 off ∧ PoolOk p' (ss ++ ss') ∧ At (ss ++ ss') off (c.name.getD []) := by
  unfold countryRecord at e
  generalize (if c.k0 ≠ 0 then (c.k0, c.k1) else prev) = kk at e
  simp only at e
  cases hnm : c.name with
  | none =>
    rw [hnm] at e
    simp only [Except.ok.injEq, Prod.mk.injEq] at e
    obtain ⟨e1, e2, e3⟩ := e
    subst e3
    refine ⟨e2.symm, 0, [], ?_, by simpa using hp, ?_⟩
    · rw [← e1, e2]
    · cases ss with
      | nil => simp at h0
      | cons s ss =>
        simp only [List.head?_cons, Option.some.injEq] at h0
        subst h0
        exact ⟨[], ss, by simp, rfl⟩
  | some s =>
    rw [hnm] at e
    simp only at e
    split at e
    · cases e
    · rename_i off q hq
      simp only [Except.ok.injEq, Prod.mk.injEq] at e
      obtain ⟨e1, e2, e3⟩ := e
      subst e3
      obtain ⟨ss', h1, h2⟩ := poolAdd_ext hp (hn s hnm) hq
      refine ⟨e2.symm, off, ss', ?_, h1, ?_⟩
      · rw [← e1, e2]
      · exact h2

theorem writeCountries_spec (l : List Country) : ∀ {prev : Byte × Byte} {p p' : Pool} {ss : List CStr} {bs : Bytes}, PoolOk p ss →
    ss.head? = some [] → (∀ c ∈ l, StrOk c.name) → writeCountries l prev p = .ok (bs, p') →
    ∃ recs ss', bs = recs.flatten ∧ Records countrySize recs ∧ recs.length = l.length ∧ PoolOk p' (ss ++ ss') ∧
      ∀ (i : Nat) (c : Country), (leaked prev l)[i]? = some c →
        ∃ off, recs[i]? = some ([c.c0, c.c1, c.k0, c.k1] ++ be32 off) ∧ At (ss ++ ss') off (c.name.getD []) := by
  induction l with
  | nil =>
    intro prev p p' ss bs hp _ _ e
    unfold writeCountries at e; cases e
    exact ⟨[], [], rfl, fun r hr => absurd hr (by simp), rfl, by simpa using hp, by simp [leaked]⟩
  | cons c l ih =>
    intro prev p p' ss bs hp h0 hn e
    unfold writeCountries at e
    split at e
    · cases e
    · rename_i b k q hq
      split at e
      · cases e
      · rename_i bs' q' hq'
        cases e
        obtain ⟨hk, off, s1, h1, h2, h3⟩ := countryRecord_spec hp h0 (hn c (by simp)) hq
        have h0' : (ss ++ s1).head? = some [] := by
          cases ss with
          | nil => simp at h0
          | cons s ss => simpa using h0
        obtain ⟨recs, s2, k1, k2, k3, k4, k5⟩ := ih h2 h0' (fun x hx => hn x (by simp [hx])) hq'
        have hl : leaked prev (c :: l) = { c with k0 := k.1, k1 := k.2 } :: leaked k l := by
          conv => lhs; unfold leaked
          by_cases hc : c.k0 ≠ 0
          · rw [if_pos hc] at hk ⊢; rw [hk]
          · rw [if_neg hc] at hk ⊢; rw [hk]
        rw [hl]
        refine ⟨b :: recs, s1 ++ s2, by simp [k1], ?_, by simp [k3], by simpa using k4, ?_⟩
        · intro r hr
          rcases List.mem_cons.mp hr with rfl | hr
          · rw [h1]; rfl
          · exact k2 r hr
        · intro i x hx
          cases i with
          | zero =>
            simp only [List.getElem?_cons_zero, Option.some.injEq] at hx
            subst hx
            exact ⟨off, by simp [h1], by simpa using h3.append s2⟩
          | succ i =>
            obtain ⟨o, o1, o2⟩ := k5 i x (by simpa using hx)
            exact ⟨o, by simpa using o1, by simpa using o2⟩

/-! ### Network and node records -/

theorem netRecords_eq (junk : Nat → Byte × Byte × Byte × Byte) (l : List Network) (k : Nat) :
    ∃ recs, netRecords junk k l = recs.flatten ∧ Records netSize recs ∧ recs.length = l.length ∧
      ∀ (i : Nat) (n : Network), l[i]? = some n → recs[i]? = some (netRecord (junk (k + i)) n) := by
  induction l generalizing k with
  | nil => exact ⟨[], rfl, fun r hr => absurd hr (by simp), rfl, by simp⟩
  | cons n l ih =>
    obtain ⟨recs, h1, h2, h3, h4⟩ := ih (k + 1)
    refine ⟨netRecord (junk k) n :: recs, by simp [netRecords, h1], ?_, by simp [h3], ?_⟩
    · intro r hr
      rcases List.mem_cons.mp hr with rfl | hr
      · rfl
      · exact h2 r hr
    · intro i m hm
      cases i with
      | zero =>
        simp only [List.getElem?_cons_zero, Option.some.injEq] at hm
        subst hm; simp
      | succ i =>
        have := h4 i m (by simpa using hm)
        rw [List.getElem?_cons_succ, this]
        congr 3; omega

theorem records_nodes (l : List NodeRec) : Records nodeSize (l.map nodeBytes) := by
  intro r hr
  obtain ⟨x, -, rfl⟩ := List.mem_map.mp hr
  rfl

theorem nodeFromRecord_nodeBytes (r : NodeRec) (h : r.zero < 2 ^ 32 ∧ r.one < 2 ^ 32 ∧ r.net < 2 ^ 32) :
    nodeFromRecord (nodeBytes r) = r := by
  have h0 : field (nodeBytes r) 0 4 = beVal (be32 r.zero) := rfl
  have h1 : field (nodeBytes r) 4 4 = beVal (be32 r.one) := rfl
  have h2 : field (nodeBytes r) 8 4 = beVal (be32 r.net) := rfl
  unfold nodeFromRecord
  rw [h0, h1, h2, beVal_be32, beVal_be32, beVal_be32, Nat.mod_eq_of_lt h.1, Nat.mod_eq_of_lt h.2.1, Nat.mod_eq_of_lt h.2.2]

/-! ### The layout -/

theorem length_sigField {s : Bytes} (h : s.length ≤ sigMax) : (sigField s).length = sigMax := by
  simp [sigField]; omega

theorem length_headerFields (h : Header) : (headerFields h).length = 60 := rfl

theorem length_headerBytes (h : Header) {s1 s2 : Bytes} (h1 : s1.length ≤ sigMax) (h2 : s2.length ≤ sigMax) :
    (headerBytes h s1 s2).length = headerSize := by
  unfold headerBytes
  simp only [List.length_append, length_headerFields, length_be16, length_sigField h1, length_sigField h2, List.length_replicate]
  rfl

theorem length_magic : magic.length = magicSize := rfl

/-- The file: everything before a section, the section, everything behind it. -/
structure Layout (f : Bytes) (s : Sections) (h : Header) (sig1 sig2 tail : Bytes) : Prop where
  eq : f = magic ++ headerBytes h sig1 sig2 ++ (bodyBytes s ++ tail)
  len1 : sig1.length ≤ sigMax
  len2 : sig2.length ≤ sigMax

theorem Layout.ases {f : Bytes} {s : Sections} {h : Header} {sig1 sig2 tail : Bytes} (l : Layout f s h sig1 sig2 tail) :
    ∃ pre post, f = pre ++ (s.ases ++ post) ∧ pre.length = asOffset := by
  refine ⟨magic ++ headerBytes h sig1 sig2 ++ padding (magicSize + headerSize), padding (asOffset + s.ases.length) ++ (s.tree ++ (padding (treeOffset s + s.tree.length) ++ (s.nets ++ (padding (netOffset s + s.nets.length) ++ (s.countries ++ (padding (countryOffset s + s.countries.length) ++ (s.pool ++ tail))))))), ?_, ?_⟩
  · rw [l.eq]; simp only [bodyBytes, List.append_assoc]
  · simp only [List.length_append, length_headerBytes h l.len1 l.len2, length_magic]; rfl

theorem Layout.tree {f : Bytes} {s : Sections} {h : Header} {sig1 sig2 tail : Bytes} (l : Layout f s h sig1 sig2 tail) :
    ∃ pre post, f = pre ++ (s.tree ++ post) ∧ pre.length = treeOffset s := by
  refine ⟨magic ++ headerBytes h sig1 sig2 ++ padding (magicSize + headerSize) ++ (s.ases ++ padding (asOffset + s.ases.length)), padding (treeOffset s + s.tree.length) ++ (s.nets ++ (padding (netOffset s + s.nets.length) ++ (s.countries ++ (padding (countryOffset s + s.countries.length) ++ (s.pool ++ tail))))), ?_, ?_⟩
  · rw [l.eq]; simp only [bodyBytes, List.append_assoc]
  · simp only [List.length_append, length_headerBytes h l.len1 l.len2, length_magic, treeOffset, asOffset]; omega

theorem Layout.nets {f : Bytes} {s : Sections} {h : Header} {sig1 sig2 tail : Bytes} (l : Layout f s h sig1 sig2 tail) :
    ∃ pre post, f = pre ++ (s.nets ++ post) ∧ pre.length = netOffset s := by
  refine ⟨magic ++ headerBytes h sig1 sig2 ++ padding (magicSize + headerSize) ++ (s.ases ++ padding (asOffset + s.ases.length)) ++ (s.tree ++ padding (treeOffset s + s.tree.length)), padding (netOffset s + s.nets.length) ++ (s.countries ++ (padding (countryOffset s + s.countries.length) ++ (s.pool ++ tail))), ?_, ?_⟩
  · rw [l.eq]; simp only [bodyBytes, List.append_assoc]
  · simp only [List.length_append, length_headerBytes h l.len1 l.len2, length_magic, netOffset, treeOffset, asOffset]; omega

theorem Layout.countries {f : Bytes} {s : Sections} {h : Header} {sig1 sig2 tail : Bytes} (l : Layout f s h sig1 sig2 tail) :
    ∃ pre post, f = pre ++ (s.countries ++ post) ∧ pre.length = countryOffset s := by
  refine ⟨magic ++ headerBytes h sig1 sig2 ++ padding (magicSize + headerSize) ++ (s.ases ++ padding (asOffset + s.ases.length)) ++ (s.tree ++ padding (treeOffset s + s.tree.length)) ++ (s.nets ++ padding (netOffset s + s.nets.length)), padding (countryOffset s + s.countries.length) ++ (s.pool ++ tail), ?_, ?_⟩
  · rw [l.eq]; simp only [bodyBytes, List.append_assoc]
  · simp only [List.length_append, length_headerBytes h l.len1 l.len2, length_magic, countryOffset, netOffset, treeOffset, asOffset]; omega

theorem Layout.pool {f : Bytes} {s : Sections} {h : Header} {sig1 sig2 tail : Bytes} (l : Layout f s h sig1 sig2 tail) :
    ∃ pre, f = pre ++ (s.pool ++ tail) ∧ pre.length = poolOffset s := by
  refine ⟨magic ++ headerBytes h sig1 sig2 ++ padding (magicSize + headerSize) ++ (s.ases ++ padding (asOffset + s.ases.length)) ++ (s.tree ++ padding (treeOffset s + s.tree.length)) ++ (s.nets ++ padding (netOffset s + s.nets.length)) ++ (s.countries ++ padding (countryOffset s + s.countries.length)), ?_, ?_⟩
  · rw [l.eq]; simp only [bodyBytes, List.append_assoc]
  · simp only [List.length_append, length_headerBytes h l.len1 l.len2, length_magic, poolOffset, countryOffset, netOffset, treeOffset, asOffset]; omega

theorem headerBytes_eq (h : Header) (s1 s2 : Bytes) : headerBytes h s1 s2 =
    be64 h.createdAt ++ (be32 h.vendor ++ (be32 h.description ++ (be32 h.license ++ (be32 h.asOff ++ (be32 h.asLen ++
    (be32 h.netOff ++ (be32 h.netLen ++ (be32 h.treeOff ++ (be32 h.treeLen ++ (be32 h.countryOff ++ (be32 h.countryLen ++
    (be32 h.poolOff ++ (be32 h.poolLen ++ (be16 s1.length ++ (be16 s2.length ++
    (sigField s1 ++ (sigField s2 ++ List.replicate 32 0))))))))))))))))) := by
  simp only [headerBytes, headerFields, List.append_assoc]

theorem field_skip (x l : Bytes) (off len : Nat) (h : x.length ≤ off) : field (x ++ l) off len = field l (off - x.length) len := by
  unfold field
  rw [List.drop_append, List.drop_of_length_le h, List.nil_append]

theorem field_skip64 (n : Nat) (l : Bytes) (off len : Nat) (h : 8 ≤ off) : field (be64 n ++ l) off len = field l (off - 8) len :=
  field_skip _ l off len h

theorem field_skip32 (n : Nat) (l : Bytes) (off len : Nat) (h : 4 ≤ off) : field (be32 n ++ l) off len = field l (off - 4) len :=
  field_skip _ l off len h

theorem field_skip16 (n : Nat) (l : Bytes) (off len : Nat) (h : 2 ≤ off) : field (be16 n ++ l) off len = field l (off - 2) len :=
  field_skip _ l off len h

theorem field_head (x l : Bytes) (len : Nat) (h : x.length = len) : field (x ++ l) 0 len = beVal x := by
  subst h; simp [field]

theorem field_head64 (n : Nat) (l : Bytes) : field (be64 n ++ l) 0 8 = beVal (be64 n) := field_head _ _ _ rfl
theorem field_head32 (n : Nat) (l : Bytes) : field (be32 n ++ l) 0 4 = beVal (be32 n) := field_head _ _ _ rfl
theorem field_head16 (n : Nat) (l : Bytes) : field (be16 n ++ l) 0 2 = beVal (be16 n) := field_head _ _ _ rfl

/-- Opening a file with a header whose pool is inside of the file. -/
theorem open_spec {f : Bytes} {s : Sections} {h : Header} {sig1 sig2 tail : Bytes} (l : Layout f s h sig1 sig2 tail)
    (hs : f.length < 2 ^ 32) (hp : h.poolOff + h.poolLen ≤ f.length) :
    dbOpen f = .ok {
      file := f
      createdAt := h.createdAt % 2 ^ 64
      vendor := h.vendor % 2 ^ 32
      description := h.description % 2 ^ 32
      license := h.license % 2 ^ 32
      sig1Off := 72
      sig1Len := sig1.length
      sig2Off := 72 + sigMax
      sig2Len := sig2.length
      poolOff := h.poolOff
      poolLen := h.poolLen
      asOff := h.asOff % 2 ^ 32
      asCount := h.asLen % 2 ^ 32 / asSize
      netOff := h.netOff % 2 ^ 32
      netCount := h.netLen % 2 ^ 32 / netSize
      nodeOff := h.treeOff % 2 ^ 32
      nodeCount := h.treeLen % 2 ^ 32 / nodeSize
      countryOff := h.countryOff % 2 ^ 32
      countryCount := h.countryLen % 2 ^ 32 / countrySize } := by
  have hlen : f.length = magicSize + headerSize + (bodyBytes s ++ tail).length := by
    rw [l.eq, List.length_append, List.length_append, length_headerBytes h l.len1 l.len2, length_magic]
  have hm : checkMagic f = 0 := by
    unfold checkMagic
    rw [if_neg (by rw [hlen]; omega), l.eq]
    rfl
  unfold dbOpen
  rw [if_neg (by rw [hm]; simp)]
  unfold readHeader
  rw [if_neg (by
    rw [Bool.not_eq_true', Bool.not_eq_false, checkBoundaries_iff (by omega) (by rw [hlen]; omega), hlen]; omega)]
  have hrd : rd f magicSize headerSize = .ok (headerBytes h sig1 sig2) := by
    rw [l.eq, List.append_assoc]
    exact rd_at _ _ _ _ _ length_magic (length_headerBytes h l.len1 l.len2)
  rw [hrd]
  simp only
  have f0 : field (headerBytes h sig1 sig2) 0 8 = beVal (be64 h.createdAt) := by
    rw [headerBytes_eq]; simp only [field_skip64, field_skip32, field_skip16, field_head64, field_head32, field_head16, Nat.reduceLeDiff, Nat.reduceSub]
  have f1 : field (headerBytes h sig1 sig2) 8 4 = beVal (be32 h.vendor) := by
    rw [headerBytes_eq]; simp only [field_skip64, field_skip32, field_skip16, field_head64, field_head32, field_head16, Nat.reduceLeDiff, Nat.reduceSub]
  have f2 : field (headerBytes h sig1 sig2) 12 4 = beVal (be32 h.description) := by
    rw [headerBytes_eq]; simp only [field_skip64, field_skip32, field_skip16, field_head64, field_head32, field_head16, Nat.reduceLeDiff, Nat.reduceSub]
  have f3 : field (headerBytes h sig1 sig2) 16 4 = beVal (be32 h.license) := by
    rw [headerBytes_eq]; simp only [field_skip64, field_skip32, field_skip16, field_head64, field_head32, field_head16, Nat.reduceLeDiff, Nat.reduceSub]
  have f4 : field (headerBytes h sig1 sig2) 20 4 = beVal (be32 h.asOff) := by
    rw [headerBytes_eq]; simp only [field_skip64, field_skip32, field_skip16, field_head64, field_head32, field_head16, Nat.reduceLeDiff, Nat.reduceSub]
  have f5 : field (headerBytes h sig1 sig2) 24 4 = beVal (be32 h.asLen) := by
    rw [headerBytes_eq]; simp only [field_skip64, field_skip32, field_skip16, field_head64, field_head32, field_head16, Nat.reduceLeDiff, Nat.reduceSub]
  have f6 : field (headerBytes h sig1 sig2) 28 4 = beVal (be32 h.netOff) := by
    rw [headerBytes_eq]; simp only [field_skip64, field_skip32, field_skip16, field_head64, field_head32, field_head16, Nat.reduceLeDiff, Nat.reduceSub]
  have f7 : field (headerBytes h sig1 sig2) 32 4 = beVal (be32 h.netLen) := by
    rw [headerBytes_eq]; simp only [field_skip64, field_skip32, field_skip16, field_head64, field_head32, field_head16, Nat.reduceLeDiff, Nat.reduceSub]
  have f8 : field (headerBytes h sig1 sig2) 36 4 = beVal (be32 h.treeOff) := by
    rw [headerBytes_eq]; simp only [field_skip64, field_skip32, field_skip16, field_head64, field_head32, field_head16, Nat.reduceLeDiff, Nat.reduceSub]
  have f9 : field (headerBytes h sig1 sig2) 40 4 = beVal (be32 h.treeLen) := by
    rw [headerBytes_eq]; simp only [field_skip64, field_skip32, field_skip16, field_head64, field_head32, field_head16, Nat.reduceLeDiff, Nat.reduceSub]
  have f10 : field (headerBytes h sig1 sig2) 44 4 = beVal (be32 h.countryOff) := by
    rw [headerBytes_eq]; simp only [field_skip64, field_skip32, field_skip16, field_head64, field_head32, field_head16, Nat.reduceLeDiff, Nat.reduceSub]
  have f11 : field (headerBytes h sig1 sig2) 48 4 = beVal (be32 h.countryLen) := by
    rw [headerBytes_eq]; simp only [field_skip64, field_skip32, field_skip16, field_head64, field_head32, field_head16, Nat.reduceLeDiff, Nat.reduceSub]
  have f12 : field (headerBytes h sig1 sig2) 52 4 = beVal (be32 h.poolOff) := by
    rw [headerBytes_eq]; simp only [field_skip64, field_skip32, field_skip16, field_head64, field_head32, field_head16, Nat.reduceLeDiff, Nat.reduceSub]
  have f13 : field (headerBytes h sig1 sig2) 56 4 = beVal (be32 h.poolLen) := by
    rw [headerBytes_eq]; simp only [field_skip64, field_skip32, field_skip16, field_head64, field_head32, field_head16, Nat.reduceLeDiff, Nat.reduceSub]
  have f14 : field (headerBytes h sig1 sig2) 60 2 = beVal (be16 sig1.length) := by
    rw [headerBytes_eq]; simp only [field_skip64, field_skip32, field_skip16, field_head64, field_head32, field_head16, Nat.reduceLeDiff, Nat.reduceSub]
  have f15 : field (headerBytes h sig1 sig2) 62 2 = beVal (be16 sig2.length) := by
    rw [headerBytes_eq]; simp only [field_skip64, field_skip32, field_skip16, field_head64, field_head32, field_head16, Nat.reduceLeDiff, Nat.reduceSub]
  have m1 : sig1.length % 2 ^ 16 = sig1.length := by have := l.len1; unfold sigMax at this; omega
  have m2 : sig2.length % 2 ^ 16 = sig2.length := by have := l.len2; unfold sigMax at this; omega
  have m3 : h.poolOff % 2 ^ 32 = h.poolOff := by omega
  have m4 : h.poolLen % 2 ^ 32 = h.poolLen := by omega
  rw [f0, f1, f2, f3, f4, f5, f6, f7, f8, f9, f10, f11, f12, f13, f14, f15]
  simp only [beVal_be16, beVal_be32, beVal_be64, m1, m2, m3, m4]
  rw [if_neg (by have := l.len1; omega), if_neg (by have := l.len2; omega), if_neg (by
    rw [Bool.not_eq_true', Bool.not_eq_false, checkBoundaries_iff (by omega) (by omega)]; exact hp)]
  rfl

end Loc
