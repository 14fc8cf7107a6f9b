import Verif.Props.Size
/-
C98: databases that are too large.
-/
namespace Loc.Props
open Loc Loc.Spec

/-- As long as the calls add less than 4 GiB, the write succeeds and every AS is found as it was added. -/
theorem large_refused_partial {K : Type} {ctz0 : Nat} (h0 : 8 ≤ ctz0) (ops : List (WOp K)) (ho : ∀ op ∈ ops, OpOk ctz0 op)
    (hs : ∀ op ∈ ops, ShortOp op) (hsum : 24585 + (ops.countP IsWrite + 1) * (ops.map callBytes).sum < 2 ^ 32)
    (e : WEnv K) (he : e.ctz0 = ctz0) :
    ∃ w w' f db, Writes ctz0 none none ops w ∧ writerWrite e w [] 0 = .ok (w', some f) ∧ dbOpen f = .ok db ∧
      ∀ number, getAs db number = match asesOf ops number with
        | none => .ok none
        | some none => .ok (some ⟨number, some []⟩)
        | some (some name) => .ok (some ⟨number, some name⟩) := by
  obtain ⟨w, hw, w', f, hf⟩ := write_total h0 ops ho hs e he []
  have hl := size_bound h0 hw he hf
  simp only [List.length_nil] at hl
  obtain ⟨db, h1, h2⟩ := as_roundtrip h0 (⟨w, [], 0, hw, he, hf, by omega⟩ : Written ctz0 none none ops e w' f)
  exact ⟨w, w', f, db, hw, hf, h1, h2⟩

theorem open_ases {f : Bytes} {s : Sections} {h : Header} {sig1 sig2 tail : Bytes} (l : Layout f s h sig1 sig2 tail)
    (hs : f.length < 2 ^ 63) (hp : h.poolOff + h.poolLen ≤ f.length) :
    ∃ db, dbOpen f = .ok db ∧ db.asCount = h.asLen % 2 ^ 32 / asSize := by
  have hlen : f.length = magicSize + headerSize + (bodyBytes s ++ tail).length := by
    rw [l.eq, List.length_append, List.length_append, length_headerBytes h l.len1 l.len2, length_magic]
  have hm : checkMagic f = 0 := by
    unfold checkMagic
    rw [if_neg (by rw [hlen]; omega), l.eq]
    rfl
  unfold dbOpen
  rw [if_neg (by rw [hm]; simp)]
  unfold readHeader
  rw [if_neg (by
    rw [Bool.not_eq_true', Bool.not_eq_false, checkBoundaries_iff (by omega) (by rw [hlen]; omega), hlen]; omega)]
  have hrd : rd f magicSize headerSize = .ok (headerBytes h sig1 sig2) := by
    rw [l.eq, List.append_assoc]
    exact rd_at _ _ _ _ _ length_magic (length_headerBytes h l.len1 l.len2)
  rw [hrd]
  simp only
  have f5 : field (headerBytes h sig1 sig2) 24 4 = beVal (be32 h.asLen) := by
    rw [headerBytes_eq]; simp only [field_skip64, field_skip32, field_skip16, field_head64, field_head32, field_head16, Nat.reduceLeDiff, Nat.reduceSub]
  have f12 : field (headerBytes h sig1 sig2) 52 4 = beVal (be32 h.poolOff) := by
    rw [headerBytes_eq]; simp only [field_skip64, field_skip32, field_skip16, field_head64, field_head32, field_head16, Nat.reduceLeDiff, Nat.reduceSub]
  have f13 : field (headerBytes h sig1 sig2) 56 4 = beVal (be32 h.poolLen) := by
    rw [headerBytes_eq]; simp only [field_skip64, field_skip32, field_skip16, field_head64, field_head32, field_head16, Nat.reduceLeDiff, Nat.reduceSub]
  have f14 : field (headerBytes h sig1 sig2) 60 2 = beVal (be16 sig1.length) := by
    rw [headerBytes_eq]; simp only [field_skip64, field_skip32, field_skip16, field_head64, field_head32, field_head16, Nat.reduceLeDiff, Nat.reduceSub]
  have f15 : field (headerBytes h sig1 sig2) 62 2 = beVal (be16 sig2.length) := by
    rw [headerBytes_eq]; simp only [field_skip64, field_skip32, field_skip16, field_head64, field_head32, field_head16, Nat.reduceLeDiff, Nat.reduceSub]
  have m1 : sig1.length % 2 ^ 16 = sig1.length := by have := l.len1; unfold sigMax at this; omega
  have m2 : sig2.length % 2 ^ 16 = sig2.length := by have := l.len2; unfold sigMax at this; omega
  rw [f5, f12, f13, f14, f15]
  simp only [beVal_be16, beVal_be32, m1, m2]
  rw [if_neg (by have := l.len1; omega), if_neg (by have := l.len2; omega), if_neg (by
    rw [Bool.not_eq_true', Bool.not_eq_false, checkBoundaries_iff (by omega) (by omega)]; omega)]
  exact ⟨_, rfl, rfl⟩

theorem asesOf_adds {K : Type} (l : List (BitVec 32)) (k : BitVec 32) :
    asesOf (l.map fun i => (WOp.addAs i none : WOp K)) k = if k ∈ l then some none else none := by
  have key : ∀ (l : List (BitVec 32)) (m : BitVec 32 → Option (Option CStr)), (m k = none ∨ m k = some none) →
      (l.map fun i => (WOp.addAs i none : WOp K)).foldl asStep m k = if k ∈ l then some none else m k := by
    intro l
    induction l with
    | nil => intro m _; simp
    | cons i l ih =>
      intro m hm
      rw [List.map_cons, List.foldl_cons, ih]
      · by_cases h : k ∈ l
        · simp [h]
        · by_cases hi : k = i
          · subst hi; rcases hm with hm | hm <;> simp [asStep, h, hm]
          · simp [asStep, h, hi]
      · simp only [asStep]
        split
        · exact .inr rfl
        · exact hm
  exact key l _ (.inl rfl)

/-- Databases that do not fit into the 32 bits of offsets and lengths are not refused: there are calls (half a
    billion ASes) after which the write succeeds, but no AS is found in the database. -/
theorem large_refused_violated (e : WEnv Unit) (he : e.ctz0 = 32) :
    ∃ (ops : List (WOp Unit)) (w w' : Writer Unit) (f : Bytes) (db : Db),
      Writes 32 none none ops w ∧ (∀ op ∈ ops, ShortOp op) ∧ (∀ op ∈ ops, IsWrite op = false) ∧
      writerWrite e w [] 0 = .ok (w', some f) ∧ dbOpen f = .ok db ∧
      (∃ number, asesOf ops number ≠ none) ∧ ∀ number, getAs db number = .ok none := by
  obtain ⟨N, hN⟩ : ∃ N, N = 2 ^ 29 := ⟨_, rfl⟩
  let nums : List (BitVec 32) := (List.range N).map (BitVec.ofNat 32)
  let ops : List (WOp Unit) := nums.map fun i => .addAs i none
  have hops : ∀ op ∈ ops, ∃ i, op = .addAs i none := by
    intro op h
    obtain ⟨i, -, rfl⟩ := List.mem_map.mp h
    exact ⟨i, rfl⟩
  have ho : ∀ op ∈ ops, OpOk 32 op := by
    intro op h
    obtain ⟨i, rfl⟩ := hops op h
    intro x hx
    cases hx
  have hsh : ∀ op ∈ ops, ShortOp op := by
    intro op h
    obtain ⟨i, rfl⟩ := hops op h
    intro x hx
    cases hx
  have hnw : ∀ op ∈ ops, IsWrite op = false := by
    intro op h
    obtain ⟨i, rfl⟩ := hops op h
    rfl
  have hnl : nums.length = N := by simp [nums]
  have hnd : nums.Nodup := by
    show (List.map _ _).Nodup
    rw [List.Nodup, List.pairwise_map]
    refine List.Pairwise.imp_of_mem ?_ List.nodup_range
    intro a b ha hb hne h
    have := congrArg BitVec.toNat h
    simp only [BitVec.toNat_ofNat] at this
    rw [List.mem_range] at ha hb
    rw [Nat.mod_eq_of_lt (by omega), Nat.mod_eq_of_lt (by omega)] at this
    exact hne this
  obtain ⟨w, hw, w', f, hf⟩ := write_total (by decide) ops ho hsh e he []
  have hi := winv hw
  have hcount : w.ases.length = N := by
    have hp : (w.ases.map (·.number)).Perm nums := by
      rw [List.perm_ext_iff_of_nodup hi.nodup hnd]
      intro k
      rw [List.mem_map]
      constructor
      · rintro ⟨a, ha, rfl⟩
        have := (hi.ases a.number a.name).mp ha
        rw [asesOf_adds] at this
        split at this
        · assumption
        · cases this
      · intro hk
        exact ⟨⟨k, none⟩, (hi.ases k none).mpr (by rw [asesOf_adds, if_pos hk]), rfl⟩
    have := hp.length_eq
    rw [List.length_map] at this
    omega
  have hsum : (ops.map callBytes).sum = 9 * N := by
    have : ∀ l : List (BitVec 32), ((l.map fun i => (WOp.addAs i none : WOp Unit)).map callBytes).sum = 9 * l.length := by
      intro l
      induction l with
      | nil => rfl
      | cons i l ih =>
        rw [List.map_cons, List.map_cons, List.sum_cons, ih, List.length_cons]
        simp only [callBytes, stringBytes]
        omega
    rw [← hnl]
    exact this nums
  have hlen := size_bound (by decide) hw he hf
  have hz : ops.countP IsWrite = 0 := List.countP_eq_zero.mpr fun op h => by rw [hnw op h]; simp
  rw [hsum, hz] at hlen
  simp only [List.length_nil] at hlen
  have hopen : ∃ db, dbOpen f = .ok db ∧ db.asCount = 0 := by
    rcases writerWrite_cases hf with ⟨-, h1⟩ | ⟨s, w1, hs, ⟨-, h1⟩ | ⟨sig1, len1, sig2, len2, msg, rest, hrest, -, e1, e2, -, hff⟩⟩
    · cases h1
    · cases h1
    have hi1 := writeSections_inv hi he hs
    obtain ⟨a1, a2, -⟩ := signWith_spec hi1.s1 hi1.l1 (fun _ => hi1.z1 rfl) e1
    obtain ⟨b1, b2, -⟩ := signWith_spec hi1.s2 hi1.l2 (fun _ => hi1.z2 rfl) e2
    have hff := Option.some.inj hff
    have hlay : Layout f s (makeHeader e w1 s) (sig1.take len1) (sig2.take len2) (List.drop (magicSize + headerSize + (bodyBytes s).length) []) :=
      ⟨by rw [hff, hrest], by rw [List.length_take]; omega, by rw [List.length_take]; omega⟩
    have hpo : (makeHeader e w1 s).poolOff + (makeHeader e w1 s).poolLen ≤ f.length := by
      obtain ⟨pre, hp, hl⟩ := hlay.pool
      show poolOffset s + s.pool.length ≤ f.length
      rw [hp, List.length_append, List.length_append, hl]; omega
    obtain ⟨db, d1, d2⟩ := open_ases hlay (by omega) hpo
    refine ⟨db, d1, ?_⟩
    have hal : (makeHeader e w1 s).asLen = 8 * N := by
      show s.ases.length = 8 * N
      have hperm := asListSort_perm w.ases
      obtain ⟨ss, p1, -, -, -⟩ := hi.pool
      unfold writeSections at hs
      simp only at hs
      split at hs
      · cases hs
      rename_i asBytes pool1 h1
      split at hs
      · cases hs
      split at hs
      · cases hs
      split at hs
      · cases hs
      cases hs
      obtain ⟨r1, ss1, rfl, c1, c2, -, -⟩ := writeAses_spec _ p1 (fun a ha => hi.names a (hperm.subset ha)) h1
      show r1.flatten.length = _
      rw [records_length c1, c2, hperm.length_eq, hcount]
      simp only [asSize]
      omega
    rw [d2, hal, hN]
    rfl
  obtain ⟨db, d1, d2⟩ := hopen
  refine ⟨ops, w, w', f, db, hw, hsh, hnw, hf, d1, ⟨0, ?_⟩, fun number => ?_⟩
  · rw [asesOf_adds, if_pos]
    · simp
    · exact List.mem_map.mpr ⟨0, List.mem_range.mpr (by omega), rfl⟩
  · unfold getAs
    rw [d2]
    rfl

/-- The assumptions of `large_refused_partial` are met by the sample. -/
example : 24585 + (demoOps.countP IsWrite + 1) * (demoOps.map callBytes).sum < 2 ^ 32 := by decide

end Loc.Props
