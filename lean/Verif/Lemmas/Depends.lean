import Verif.Lemmas.Safe
/-
Which bytes of a file a lookup depends on.
-/
namespace Loc
open Loc.Spec

/-- Two files have the same bytes at the positions `S`. -/
def AgreeAt (S : List Nat) (f g : Bytes) : Prop := ∀ i ∈ S, g[i]? = f[i]?

theorem AgreeAt.left {S T : List Nat} {f g : Bytes} (h : AgreeAt (S ++ T) f g) : AgreeAt S f g :=
  fun i hi => h i (List.mem_append_left _ hi)

theorem AgreeAt.right {S T : List Nat} {f g : Bytes} (h : AgreeAt (S ++ T) f g) : AgreeAt T f g :=
  fun i hi => h i (List.mem_append_right _ hi)

theorem slice_agree {f g : Bytes} {off len : Nat} (h : AgreeAt (List.range' off len) f g) :
    (g.drop off).take len = (f.drop off).take len := by
  apply List.ext_getElem?
  intro i
  by_cases hi : i < len
  · rw [List.getElem?_take_of_lt hi, List.getElem?_take_of_lt hi, List.getElem?_drop, List.getElem?_drop]
    exact h _ (List.mem_range'_1.mpr ⟨by omega, by omega⟩)
  · rw [List.getElem?_eq_none (by rw [List.length_take]; omega), List.getElem?_eq_none (by rw [List.length_take]; omega)]

/-- What a lookup takes from the header, and the length of the file. -/
structure SameShape (db db' : Db) : Prop where
  length : db'.file.length = db.file.length
  nodeOff : db'.nodeOff = db.nodeOff
  nodeCount : db'.nodeCount = db.nodeCount
  netOff : db'.netOff = db.netOff
  netCount : db'.netCount = db.netCount

theorem dbObject_agree {f g : Bytes} {base size n : Nat} (hl : g.length = f.length) (h : AgreeAt (List.range' (base + n * size) size) f g) :
    dbObject g base size n = dbObject f base size n := by
  unfold dbObject rd
  rw [hl, slice_agree h]

theorem fetchNode_agree {db db' : Db} (hs : SameShape db db') {i : Nat}
    (h : AgreeAt (List.range' (db.nodeOff + i * nodeSize) nodeSize) db.file db'.file) : fetchNode db' i = fetchNode db i := by
  unfold fetchNode
  rw [hs.nodeOff, dbObject_agree hs.length h]

theorem lookupHere_agree {db db' : Db} (hs : SameShape db db') {a na : Addr} {level : Nat} {node : NodeRec}
    (h : AgreeAt (List.range' (db.netOff + node.net * netSize) netSize) db.file db'.file) :
    lookupHere db' a na level node = lookupHere db a na level node := by
  unfold lookupHere handleLeaf fetchNetwork
  rw [hs.netOff, hs.netCount, dbObject_agree hs.length h]

theorem lookupHere_not_soft {db : Db} {a na : Addr} {level : Nat} {node : NodeRec} : lookupHere db a na level node ≠ .ok .soft := by
  unfold lookupHere
  intro h
  split at h
  · split at h <;> cases h
  · cases h

theorem lookupLoop_depends (db : Db) (a : Addr) (rem : Nat) : ∀ (na : Addr) (idx : Nat), ∃ S : List Nat, S.length ≤ 12 * (rem + 1) + 12 ∧
    (∀ na', lookupLoop db a rem na idx = .ok (.soft, na') → S.length ≤ 12 * (rem + 1)) ∧
    ∀ db', SameShape db db' → AgreeAt S db.file db'.file → lookupLoop db' a rem na idx = lookupLoop db a rem na idx := by
  induction rem with
  | zero =>
    intro na idx
    refine ⟨List.range' (db.nodeOff + idx * nodeSize) nodeSize, ?_, ?_, ?_⟩
    · rw [List.length_range']; decide
    · intro _ _; rw [List.length_range']; decide
    · intro db' hs h
      unfold lookupLoop
      rw [fetchNode_agree hs h]
  | succ rem ih =>
    intro na idx
    have hn12 : (List.range' (db.nodeOff + idx * nodeSize) nodeSize).length = 12 := by rw [List.length_range']; rfl
    cases hf : fetchNode db idx with
    | error x =>
      refine ⟨List.range' (db.nodeOff + idx * nodeSize) nodeSize, by omega, fun _ _ => by omega, ?_⟩
      intro db' hs h
      unfold lookupLoop
      rw [fetchNode_agree hs h, hf]
    | ok r =>
      cases r with
      | none =>
        refine ⟨List.range' (db.nodeOff + idx * nodeSize) nodeSize, by omega, fun _ _ => by omega, ?_⟩
        intro db' hs h
        unfold lookupLoop
        rw [fetchNode_agree hs h, hf]
      | some node =>
        have hm12 : (List.range' (db.netOff + node.net * netSize) netSize).length = 12 := by rw [List.length_range']; rfl
        obtain ⟨T, hT1, hT2, hT3⟩ := ih (setBit na (128 - (rem + 1)) (getBit a (128 - (rem + 1)))) (if getBit a (128 - (rem + 1)) then node.one else node.zero)
        by_cases h1 : (if getBit a (128 - (rem + 1)) then node.one else node.zero) > 0
        · by_cases h2 : (if getBit a (128 - (rem + 1)) then node.one else node.zero) ≥ db.nodeCount
          · refine ⟨List.range' (db.nodeOff + idx * nodeSize) nodeSize, by omega, fun _ _ => by omega, ?_⟩
            intro db' hs h
            unfold lookupLoop
            rw [fetchNode_agree hs h, hf]
            simp only [hs.nodeCount]
            rw [if_pos h1, if_pos h2, if_pos h1, if_pos h2]
          · by_cases h3 : ∃ na', lookupLoop db a rem (setBit na (128 - (rem + 1)) (getBit a (128 - (rem + 1)))) (if getBit a (128 - (rem + 1)) then node.one else node.zero) = .ok (.soft, na')
            · obtain ⟨na', h3⟩ := h3
              have hT := hT2 na' h3
              refine ⟨List.range' (db.nodeOff + idx * nodeSize) nodeSize ++ (T ++ List.range' (db.netOff + node.net * netSize) netSize), ?_, ?_, ?_⟩
              · rw [List.length_append, List.length_append]; omega
              · intro na'' e
                exfalso
                unfold lookupLoop at e
                rw [hf] at e
                simp only [if_pos h1, if_neg h2, h3] at e
                split at e
                · cases e
                · rename_i r hr
                  cases e
                  exact lookupHere_not_soft hr
              · intro db' hs h
                unfold lookupLoop
                rw [fetchNode_agree hs h.left, hf]
                simp only [hs.nodeCount]
                rw [if_pos h1, if_neg h2, if_pos h1, if_neg h2, hT3 db' hs h.right.left, h3]
                simp only
                rw [lookupHere_agree hs h.right.right]
            · refine ⟨List.range' (db.nodeOff + idx * nodeSize) nodeSize ++ T, ?_, ?_, ?_⟩
              · rw [List.length_append]; omega
              · intro na'' e
                exfalso
                unfold lookupLoop at e
                rw [hf] at e
                simp only [if_pos h1, if_neg h2] at e
                split at e
                · cases e
                · cases e
                · cases e
                · rename_i h4
                  exact h3 ⟨_, h4⟩
              · intro db' hs h
                unfold lookupLoop
                rw [fetchNode_agree hs h.left, hf]
                simp only [hs.nodeCount]
                rw [if_pos h1, if_neg h2, if_pos h1, if_neg h2, hT3 db' hs h.right]
                split
                · rfl
                · rfl
                · rfl
                · rename_i h4
                  exact absurd ⟨_, h4⟩ h3
        · refine ⟨List.range' (db.nodeOff + idx * nodeSize) nodeSize ++ List.range' (db.netOff + node.net * netSize) netSize, ?_, ?_, ?_⟩
          · rw [List.length_append]; omega
          · intro _ _; rw [List.length_append]; omega
          · intro db' hs h
            unfold lookupLoop
            rw [fetchNode_agree hs h.left, hf]
            simp only
            rw [if_neg h1, if_neg h1, lookupHere_agree hs h.right]

theorem readHeader_shape {f : Bytes} {db : Db} (h : dbOpen f = .ok db) : ∃ b : Bytes, b = (f.drop magicSize).take headerSize ∧ db.file = f ∧
    db.netOff = field b 28 4 ∧ db.netCount = field b 32 4 / netSize ∧ db.nodeOff = field b 36 4 ∧ db.nodeCount = field b 40 4 / nodeSize ∧
    magicSize + headerSize ≤ f.length := by
  unfold dbOpen at h
  split at h
  · cases h
  unfold readHeader at h
  split at h
  · cases h
  split at h
  · cases h
  rename_i b hb
  unfold rd at hb
  split at hb
  · rename_i hl
    split at h
    · cases h
    split at h
    · cases h
    split at h
    · cases h
    cases h
    exact ⟨b, (Except.ok.inj hb).symm, rfl, rfl, rfl, rfl, rfl, hl⟩
  · cases hb

theorem header_field {f g : Bytes} {off : Nat} (ho : off + 4 ≤ headerSize) (h : AgreeAt (List.range' (magicSize + off) 4) f g) :
    field ((g.drop magicSize).take headerSize) off 4 = field ((f.drop magicSize).take headerSize) off 4 := by
  unfold field
  have e : ∀ x : Bytes, (((x.drop magicSize).take headerSize).drop off).take 4 = (x.drop (magicSize + off)).take 4 := by
    intro x
    rw [List.drop_take, List.take_take, List.drop_drop, Nat.min_eq_left (by omega)]
  rw [e, e, slice_agree h]

end Loc
