import Verif.Lemmas.Trie
/-
What a lookup in a database holding a tree does.
-/
namespace Loc
open Spec

theorem bits_setBit (a : Addr) (i : Nat) (hi : i < 128) (v : Bool) : bits (setBit a i v) = (bits a).set i v := by
  apply List.ext_getElem
  · simp
  · intro j h1 h2
    simp at h1
    rw [getElem_bits, List.getElem_set, getElem_bits, getBit_setBit a i j v hi h1]

theorem bits_setBit_zeros {na : Addr} {u : List Bool} {rem : Nat} (hu : u.length + (rem + 1) = 128)
    (hna : bits na = u ++ List.replicate (rem + 1) false) (b : Bool) :
    bits (setBit na u.length b) = (u ++ [b]) ++ List.replicate rem false := by
  rw [bits_setBit _ _ (by omega), hna, List.set_append_right _ _ (Nat.le_refl _), Nat.sub_self, List.replicate_succ]
  simp

theorem take_succ_bits {a : Addr} {u : List Bool} (hu : u <+: bits a) (hl : u.length < 128) :
    (bits a).take (u.length + 1) = u ++ [getBit a u.length] := by
  rw [List.take_succ, ← List.prefix_iff_eq_take.mp hu, List.getElem?_eq_getElem (by simpa using hl), getElem_bits]
  rfl

/-- What the deepest node on the path of the address yields. -/
def deepest (t : Tree) (a : Addr) (w : List Bool) : Option Network :=
  match look t w with
  | none => none
  | some n => if n.pfx = 95 ∧ isV4Mapped a = true then none else some (readBack n)

/-- An address that agrees with `a` on the first bits and is zero afterwards looks like an IPv4 address only
    if enough bits are taken. -/
theorem v4_zeros {na a : Addr} {k : Nat} (hk : k ≤ 128) (h : bits na = (bits a).take k ++ List.replicate (128 - k) false) :
    isV4Mapped na = true ↔ 96 ≤ k ∧ isV4Mapped a = true := by
  rw [isV4Mapped_iff_path, isV4Mapped_iff_path]
  have hlen : ((bits a).take k).length = k := by simp [hk]
  have h95 : ∀ (l : List Bool), v4path <+: l → l[95]? = some true := by
    rintro l ⟨x, rfl⟩
    rw [List.getElem?_append_left (by rw [length_v4path]; omega)]
    decide
  constructor
  · intro hv
    have hk96 : 96 ≤ k := by
      by_contra hlt
      have h1 := h95 _ hv
      rw [h, List.getElem?_append_right (by omega), hlen, List.getElem?_replicate] at h1
      split at h1
      · cases h1
      · cases h1
    refine ⟨hk96, ?_⟩
    have h1 : (bits a).take k <+: bits na := ⟨_, h.symm⟩
    rcases prefix_or_prefix hv h1 with h2 | h2
    · exact h2.trans (List.take_prefix _ _)
    · have := h2.length_le
      rw [length_v4path, hlen] at this
      have : k = 96 := by omega
      rw [h2.eq_of_length (by rw [hlen, length_v4path, this])] at h1
      rw [← h2.eq_of_length (by rw [hlen, length_v4path, this])]
      exact List.take_prefix _ _
  · rintro ⟨h1, h2⟩
    refine List.IsPrefix.trans ?_ (⟨_, h.symm⟩ : (bits a).take k <+: bits na)
    rcases prefix_or_prefix h2 (List.take_prefix k (bits a)) with h3 | h3
    · exact h3
    · have h4 := h3.length_le
      rw [length_v4path, hlen] at h4
      rw [h3.eq_of_length (by rw [hlen, length_v4path]; omega)]; exact List.prefix_refl _

theorem lookupHere_spec {db : Db} {t : Tree} (h : Holds db t) {nets : List Network} {junk : Nat → Byte × Byte × Byte × Byte}
    (hnets : nets.length < 0xffffffff)
    (hN : ∀ (i : Nat) (n : Network) (a : Addr) (p : Nat), nets[i]? = some n → fetchNetwork db a p i = networkFromRecord a p (netRecord (junk i) n))
    {a na : Addr} {w : List Bool} {r : NodeRec} (hw : w <+: bits a) (hl : w.length < 128)
    (hr : (match look t w with | none => r.net = 0xffffffff | some n => nets[r.net]? = some n))
    (hna : bits na = (bits a).take (w.length + 1) ++ List.replicate (128 - (w.length + 1)) false) :
    lookupHere db a na w.length r = .ok (.ok (deepest t a w)) := by
  unfold lookupHere deepest
  cases hlk : look t w with
  | none =>
    rw [hlk] at hr
    have : isLeaf r = false := by simp [isLeaf, hr]
    simp only [this]
    rfl
  | some n =>
    rw [hlk] at hr
    obtain ⟨hb, hp⟩ := look_block h.wf hlk
    have hmem : n ∈ t.networks := (mem_networks _ _).mpr ⟨w, hlk⟩
    have hlp : n.pfx = w.length := by rw [← length_path hb.le, hp]
    have hleaf : isLeaf r = true := by
      have := (List.getElem?_eq_some_iff.mp hr).1
      simp only [isLeaf]
      exact decide_eq_true (by omega)
    have hv := v4_zeros (by omega) hna
    have hwna : w <+: bits na := by
      rw [hna, take_succ_bits hw hl, List.append_assoc]
      exact List.prefix_append _ _
    simp only [hleaf, if_true, handleLeaf, hN _ n na w.length hr]
    by_cases h95 : n.pfx = 95 ∧ isV4Mapped a = true
    · have hsoft := networkFromRecord_soft (junk r.net) n (a := na) (p := w.length) (hv.mpr ⟨by omega, h95.2⟩) (by omega)
      simp only [hsoft, if_pos h95]
    · have hgot := networkFromRecord_ok (junk r.net) hb (h.country n hmem) (a := na) (by rw [hp]; exact hwna) (by
        intro hv4
        obtain ⟨h1, h2⟩ := hv.mp hv4
        have : n.pfx ≠ 95 := fun h => h95 ⟨h, h2⟩
        omega)
      rw [hlp] at hgot
      have hm : matchesAddress (readBack n) a = true := by
        rw [matchesAddress_iff, contains_iff_path (readBack_block hb), readBack_path, hp]
        exact hw
      simp only [hgot, hm, if_true, if_neg h95]

/-- The lookup from a node on the path of the address. -/
theorem lookupLoop_spec {db : Db} {t : Tree} (h : Holds db t) {recs : List NodeRec} {nets : List Network} {junk : Nat → Byte × Byte × Byte × Byte}
    (hcount : db.nodeCount = recs.length) (hnets : nets.length < 0xffffffff)
    (hbound : ∀ r ∈ recs, r.zero < recs.length ∧ r.one < recs.length ∧ (r.net = 0xffffffff ∨ r.net < nets.length))
    (hR : ∀ (i : Nat) (r : NodeRec), recs[i]? = some r → fetchNode db i = .ok (some r))
    (hN : ∀ (i : Nat) (n : Network) (a : Addr) (p : Nat), nets[i]? = some n → fetchNetwork db a p i = networkFromRecord a p (netRecord (junk i) n))
    (a : Addr) (rem : Nat) :
    ∀ (u : List Bool) (i : Nat) (na : Addr), u.length + rem = 128 → u <+: bits a →
      Dec (fun i => recs[i]?) (fun i => nets[i]?) i (t.sub u) → bits na = u ++ List.replicate rem false →
      (ex t (bits a) = true → lookupLoop db a rem na i = .error .oob) ∧
      (ex t (bits a) = false → ∃ w na', u <+: w ∧ w <+: bits a ∧ w.length < 128 ∧ ex t w = true ∧
        ex t ((bits a).take (w.length + 1)) = false ∧ lookupLoop db a rem na i = .ok (.ok (deepest t a w), na')) := by
  induction rem with
  | zero =>
    intro u i na hl hu hd hna
    have hua : u = bits a := hu.eq_of_length (by simpa using hl)
    obtain ⟨r, hr, -⟩ := dec_net hd
    have hex : ex t (bits a) = true := by
      rw [← hua, ex_iff_sub]
      intro hn; rw [hn] at hd; exact hd
    refine ⟨fun _ => ?_, fun h => by rw [hex] at h; cases h⟩
    unfold lookupLoop
    simp only [hR i r hr]
  | succ rem ih =>
    intro u i na hl hu hd hna
    have hlt : u.length < 128 := by omega
    have hex : ex t u = true := by
      rw [ex_iff_sub]
      intro hn; rw [hn] at hd; exact hd
    obtain ⟨r, hr, hnet⟩ := dec_net hd
    have hlev : 128 - (rem + 1) = u.length := by omega
    have htake := take_succ_bits hu hlt
    have hna' := bits_setBit_zeros hl hna (getBit a u.length)
    have hchild : (t.sub (u ++ [getBit a u.length]) = .nil ∧ (if getBit a u.length then r.one else r.zero) = 0) ∨
        ((if getBit a u.length then r.one else r.zero) ≠ 0 ∧
          Dec (fun i => recs[i]?) (fun i => nets[i]?) (if getBit a u.length then r.one else r.zero) (t.sub (u ++ [getBit a u.length]))) := by
      rw [sub_append]
      cases hs : t.sub u with
      | nil => rw [hs] at hd; exact hd.elim
      | node d net z o =>
        rw [hs] at hd
        obtain ⟨r', hr', hz, ho, -⟩ := hd
        have hrr : some r = some r' := hr.symm.trans hr'
        cases hrr
        cases getBit a u.length with
        | false =>
          have : (Tree.node d net z o).sub [false] = z := by simp [Tree.sub]
          rw [this]
          simp only [Bool.false_eq_true, if_false]
          rcases hz with hz | hz
          · exact .inl hz
          · exact .inr hz.2
        | true =>
          have : (Tree.node d net z o).sub [true] = o := by simp [Tree.sub]
          rw [this]
          simp only [if_true]
          rcases ho with hz | hz
          · exact .inl hz
          · exact .inr hz.2
    unfold lookupLoop
    simp only [hR i r hr, hlev]
    rcases hchild with ⟨hnil, h0⟩ | ⟨h0, hd'⟩
    · have hexf : ex t ((bits a).take (u.length + 1)) = false := by
        rw [htake]
        cases hx : ex t (u ++ [getBit a u.length]) with
        | false => rfl
        | true => exact absurd hnil ((ex_iff_sub _ _).mp hx)
      have hexa : ex t (bits a) = false := by
        cases hx : ex t (bits a) with
        | false => rfl
        | true => rw [ex_prefix (List.take_prefix _ _) hx] at hexf; cases hexf
      refine ⟨fun h => (by rw [hexa] at h; cases h), fun _ => ⟨u, setBit na u.length (getBit a u.length), List.prefix_refl _, hu, hlt, hex, hexf, ?_⟩⟩
      rw [look_sub, List.append_nil] at hnet
      have hhere := lookupHere_spec h hnets hN (na := setBit na u.length (getBit a u.length)) hu hlt hnet (by
        rw [htake, hna', show 128 - (u.length + 1) = rem by omega])
      rw [if_neg (by omega)]
      rw [hhere]
    · have hlt' : (if getBit a u.length then r.one else r.zero) < recs.length := by
        have := hbound r (List.mem_of_getElem? hr)
        split <;> omega
      rw [if_pos (by omega), if_neg (by omega)]
      have hih := ih (u ++ [getBit a u.length]) _ (setBit na u.length (getBit a u.length)) (by simp; omega) (by rw [← htake]; exact List.take_prefix _ _) hd' hna'
      constructor
      · intro hx
        rw [hih.1 hx]
      · intro hx
        obtain ⟨w, na', w1, w2, w3, w4, w5, w6⟩ := hih.2 hx
        exact ⟨w, na', (List.prefix_append _ _).trans w1, w2, w3, w4, w5, by rw [w6]⟩

theorem lookup_spec {db : Db} {t : Tree} (h : Holds db t) (a : Addr) :
    (ex t (bits a) = true → lookup db a = .error .oob) ∧
    (ex t (bits a) = false → ∃ w, w <+: bits a ∧ w.length < 128 ∧ ex t w = true ∧
      ex t ((bits a).take (w.length + 1)) = false ∧ lookup db a = .ok (.ok (deepest t a w))) := by
  obtain ⟨recs, nets, junk, d1, d2, d3, d4, d5, d5', d6, d7, d8, d9⟩ := h.recs
  have := lookupLoop_spec h d3 d5 d6 d8 d9 a 128 [] 0 (Vector.replicate 16 0) rfl (List.nil_prefix) (by rw [sub_root]; exact d1) (by
    rw [List.nil_append]; decide +kernel)
  unfold lookup
  constructor
  · intro hx; rw [this.1 hx]
  · intro hx
    obtain ⟨w, na', -, w2, w3, w4, w5, w6⟩ := this.2 hx
    exact ⟨w, w2, w3, w4, w5, by rw [w6]⟩

end Loc
