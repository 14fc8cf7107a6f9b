import Verif.Spec.WriteIo
import Verif.Lemmas.File
/-
Lemmas for C80
-/
namespace Loc
open Spec

variable {σ K : Type}

theorem take_whole {α : Type} {b : List α} {n : Nat} (h : b.length ≤ n) : b.take n = b := List.take_of_length_le h

theorem sliceRecords_flatten {k : Nat} (hk : 0 < k) {n : Nat} {b : Bytes} (hn : b.length ≤ n) : (sliceRecords k n b).flatten = b := by
  induction n generalizing b with
  | zero =>
    rw [List.length_eq_zero_iff.mp (Nat.le_zero.mp hn)]
    rfl
  | succ n ih =>
    have hu : sliceRecords k (n + 1) b = if b.isEmpty then [] else b.take k :: sliceRecords k n (b.drop k) := rfl
    rw [hu]
    cases b with
    | nil => rfl
    | cons a b =>
      rw [if_neg (by simp), List.flatten_cons, ih, List.take_append_drop]
      rw [List.length_drop]
      simp only [List.length_cons] at hn ⊢
      omega

/-! ## Padding -/

theorem pad_length (off : Nat) : (padding off).length = (pageSize - off % pageSize) % pageSize := by
  unfold padding
  rw [List.length_replicate]

theorem pad_step {off : Nat} (h : off % pageSize ≠ 0) : padding off = 0 :: padding (off + 1) := by
  unfold padding
  have h1 : (pageSize - off % pageSize) % pageSize = (pageSize - (off + 1) % pageSize) % pageSize + 1 := by
    unfold pageSize at h ⊢
    omega
  rw [h1, List.replicate_succ]

theorem pad_aligned {off : Nat} (h : off % pageSize = 0) : padding off = [] := by
  unfold padding
  rw [h]
  rfl

theorem pad_lt (off : Nat) : (padding off).length < pageSize := by
  rw [pad_length]
  exact Nat.mod_lt _ (by decide)

theorem pad_boundary (off : Nat) : (off + (padding off).length) % pageSize = 0 := by
  rw [pad_length]
  unfold pageSize
  omega

/-! ## A file -/

/-- So far, `q` was written behind the header. -/
structure Wrote (old : Bytes) (v : Bytes × Nat) (q : Bytes) : Prop where
  pos : v.2 = magicSize + headerSize + q.length
  magic : v.1.take magicSize = Loc.magic
  rest : v.1.drop (magicSize + headerSize) = q ++ old.drop (magicSize + headerSize + q.length)
  hole : ∀ (i : Nat) (x : Byte), magicSize ≤ i → i < magicSize + headerSize → v.1[i]? = some x → old[i]? = some x ∨ x = 0

theorem overlay_ne {data b : Bytes} {pos : Nat} (h : b ≠ []) :
    overlay data pos b = data.take pos ++ List.replicate (pos - data.length) 0 ++ b ++ data.drop (pos + b.length) := by
  unfold overlay
  rw [if_neg]
  intro hb
  exact h (List.isEmpty_iff.mp hb)

theorem wrote_overlay {old : Bytes} {v : Bytes × Nat} {q : Bytes} (hf : Wrote old v q) (b : Bytes) :
    Wrote old (overlay v.1 v.2 b, v.2 + b.length) (q ++ b) := by
  obtain ⟨data, pos⟩ := v
  have hpos : pos = magicSize + headerSize + q.length := hf.pos
  have hmagic : data.take magicSize = Loc.magic := hf.magic
  have hrest : data.drop (magicSize + headerSize) = q ++ old.drop (magicSize + headerSize + q.length) := hf.rest
  simp only
  have hlen : magicSize ≤ data.length := by
    have := congrArg List.length hmagic
    rw [List.length_take, length_magic] at this
    omega
  by_cases hb : b = []
  · rw [hb, List.append_nil]
    exact hf
  · rw [overlay_ne hb]
    have hX : (data.take pos ++ List.replicate (pos - data.length) (0 : Byte)).length = pos := by
      rw [List.length_append, List.length_take, List.length_replicate]
      omega
    have hhole := hf.hole
    simp only at hhole
    refine ⟨?_, ?_, ?_, ?_⟩
    · rw [List.length_append]
      simp only
      omega
    · simp only
      rw [List.append_assoc, List.append_assoc, List.take_append_of_le_length, List.take_take, Nat.min_eq_left (by omega)]
      · exact hmagic
      · rw [List.length_take]
        omega
    · simp only
      have hq : (data.take pos ++ List.replicate (pos - data.length) (0 : Byte)).drop (magicSize + headerSize) = q := by
        by_cases hq : q = []
        · rw [hq, List.length_nil, Nat.add_zero] at hpos
          rw [hq]
          apply List.drop_eq_nil_of_le
          rw [hX, hpos]
        · have hr := congrArg List.length hrest
          rw [List.length_drop, List.length_append] at hr
          have hq1 : 0 < q.length := List.length_pos_iff.mpr hq
          have h0 : pos - data.length = 0 := by omega
          rw [h0, List.replicate_zero, List.append_nil, List.drop_take, hrest, hpos, Nat.add_sub_cancel_left, List.take_left' rfl]
      rw [List.append_assoc _ b, List.drop_append_of_le_length (by rw [hX]; omega), hq, List.append_assoc q]
      have : pos + b.length = magicSize + headerSize + (q.length + b.length) := by omega
      rw [this, ← List.drop_drop, hrest, List.drop_append, List.drop_eq_nil_of_le (by omega), List.nil_append, List.drop_drop,
        List.length_append]
      congr 3
      omega
    · intro i x h1 h2 h3
      simp only at h3
      rw [List.append_assoc _ b, List.getElem?_append_left (by rw [hX]; omega)] at h3
      by_cases hi : i < data.length
      · rw [List.getElem?_append_left (by rw [List.length_take]; omega), List.getElem?_take_of_lt (by omega)] at h3
        exact hhole i x h1 h2 h3
      · rw [List.getElem?_append_right (by rw [List.length_take]; omega)] at h3
        exact .inr (List.eq_of_mem_replicate (List.mem_of_getElem? h3))

section
variable {d : IoDev σ} {can : Nat → Nat → Prop} {view : σ → Bytes × Nat} {old : Bytes} {size : Nat}

/-- Everything behind the header up to this size can be written. -/
def CanBody (can : Nat → Nat → Prop) (size : Nat) : Prop := ∀ pos len, magicSize + headerSize ≤ pos → pos + len ≤ size → can pos len

theorem wrote_put (hv : IsFile d can view) (hc : CanBody can size) {f : σ} {q b : Bytes} (hf : Wrote old (view f) q)
    (hs : magicSize + headerSize + q.length + b.length ≤ size) :
    (d.write f b).1 = b.length ∧ Wrote old (view (d.write f b).2) (q ++ b) := by
  obtain ⟨h1, h2⟩ := hv.write f b (hc _ _ (by rw [hf.pos]; omega) (by rw [hf.pos]; omega))
  rw [h2]
  exact ⟨h1, wrote_overlay hf b⟩

theorem wrote_records (hv : IsFile d can view) (hc : CanBody can size) {l : List Bytes} {f : σ} {q : Bytes}
    (hf : Wrote old (view f) q) (hs : magicSize + headerSize + q.length + l.flatten.length ≤ size) (off : Nat) :
    (ioRecords d f off l).1 = off + l.flatten.length ∧ Wrote old (view (ioRecords d f off l).2) (q ++ l.flatten) := by
  induction l generalizing f q off with
  | nil => exact ⟨rfl, by rw [List.flatten_nil, List.append_nil]; exact hf⟩
  | cons b l ih =>
    have hu : ioRecords d f off (b :: l) = ioRecords d (d.write f b).2 (off + (d.write f b).1) l := rfl
    rw [List.flatten_cons, List.length_append] at hs
    obtain ⟨h1, h2⟩ := wrote_put (b := b) hv hc hf (by omega)
    rw [hu]
    obtain ⟨h3, h4⟩ := ih h2 (by rw [List.length_append]; omega) (off + (d.write f b).1)
    rw [h3, List.flatten_cons, List.length_append, ← List.append_assoc]
    exact ⟨by rw [h1, Nat.add_assoc], h4⟩

theorem wrote_align (hv : IsFile d can view) (hc : CanBody can size) {fuel : Nat} {f : σ} {q : Bytes}
    (hf : Wrote old (view f) q) {off : Nat} (hfuel : (padding off).length < fuel)
    (hs : magicSize + headerSize + q.length + (padding off).length ≤ size) :
    ∃ f', ioAlign d fuel f off = .ok (off + (padding off).length, f') ∧ Wrote old (view f') (q ++ padding off) := by
  induction fuel generalizing f q off with
  | zero => exact absurd hfuel (Nat.not_lt_zero _)
  | succ fuel ih =>
    have hu : ioAlign d (fuel + 1) f off =
      if off % pageSize = 0 then .ok (off, f) else ioAlign d fuel (d.write f [0]).2 (off + (d.write f [0]).1) := rfl
    by_cases h : off % pageSize = 0
    · rw [hu, if_pos h, pad_aligned h, List.append_nil]
      exact ⟨f, rfl, hf⟩
    · rw [hu, if_neg h]
      rw [pad_step h] at hfuel hs ⊢
      simp only [List.length_cons] at hfuel hs ⊢
      obtain ⟨h1, h2⟩ := wrote_put (b := [0]) hv hc hf (by simp only [List.length_cons, List.length_nil]; omega)
      rw [h1]
      obtain ⟨f', h3, h4⟩ := ih (off := off + 1) h2 (by omega) (by rw [List.length_append]; simp only [List.length_cons, List.length_nil]; omega)
      refine ⟨f', ?_, ?_⟩
      · rw [show off + ((padding (off + 1)).length + 1) = off + 1 + (padding (off + 1)).length by omega]
        exact h3
      · rw [List.append_assoc] at h4
        exact h4

theorem wrote_section (hv : IsFile d can view) (hc : CanBody can size) {fuel : Nat} (hfuel : pageSize ≤ fuel) {f : σ}
    {q : Bytes} (hf : Wrote old (view f) q) {off k : Nat} (hk : 0 < k) {b : Bytes}
    (hs : magicSize + headerSize + q.length + b.length + (padding (off + b.length)).length ≤ size) :
    ∃ f', ioSection d fuel f off k b = .ok (off + b.length + (padding (off + b.length)).length, f') ∧
      Wrote old (view f') (q ++ (b ++ padding (off + b.length))) := by
  have hfl := sliceRecords_flatten hk (Nat.le_refl b.length)
  obtain ⟨h1, h2⟩ := wrote_records (l := sliceRecords k b.length b) hv hc hf (by rw [hfl]; omega) off
  rw [hfl] at h1 h2
  have hu : ioSection d fuel f off k b =
    ioAlign d fuel (ioRecords d f off (sliceRecords k b.length b)).2 (ioRecords d f off (sliceRecords k b.length b)).1 := rfl
  rw [hu, h1]
  obtain ⟨f', h3, h4⟩ := wrote_align (off := off + b.length) hv hc h2 (Nat.lt_of_lt_of_le (pad_lt _) hfuel) (by rw [List.length_append]; omega)
  refine ⟨f', h3, ?_⟩
  rw [List.append_assoc] at h4
  exact h4

/-- The magic bytes, and the space for the header. -/
theorem wrote_start (hv : IsFile d can view) (hc : CanBody can size) (hm : can 0 magicSize) {fuel : Nat} (hfuel : pageSize ≤ fuel)
    (hs : asOffset ≤ size) (f : σ) :
    ∃ f', ioStart d fuel f = .ok (some asOffset, f') ∧ Wrote (view f).1 (view f') (padding (magicSize + headerSize)) := by
  obtain ⟨s1, s2⟩ := hv.seek f 0
  unfold ioStart
  cases e1 : d.seek f 0 with
  | mk b f1 =>
  rw [e1] at s1 s2
  simp only at s1 s2
  subst s1
  simp only
  obtain ⟨w1, w2⟩ := hv.write f1 Loc.magic (by rw [s2]; exact hm)
  rw [w1]
  generalize (d.write f1 Loc.magic).2 = f2 at w2 ⊢
  obtain ⟨b1, b2⟩ := hv.seekBy f2 headerSize
  cases e3 : d.seekBy f2 headerSize with
  | mk b f3 =>
  rw [e3] at b1 b2
  simp only at b1 b2
  subst b1
  simp only
  have hw : Wrote (view f).1 (view f3) [] := by
    rw [b2, w2, s2]
    simp only
    rw [overlay_ne (by decide), List.take_zero, Nat.zero_sub, List.replicate_zero, List.nil_append, List.nil_append]
    refine ⟨?_, ?_, ?_, ?_⟩
    · simp only [List.length_nil, length_magic]
      omega
    · simp only
      rw [List.take_left' length_magic]
    · simp only [List.length_nil, length_magic, List.nil_append]
      rw [List.drop_append, List.drop_eq_nil_of_le (by rw [length_magic]; omega), List.nil_append, List.drop_drop, length_magic]
      congr 1
    · intro i x h1 h2 h3
      simp only at h3
      rw [List.getElem?_append_right (by rw [length_magic]; exact h1), List.getElem?_drop] at h3
      left
      rw [← h3]
      congr 1
      rw [length_magic]
      omega
  have hAs : asOffset = magicSize + headerSize + (padding (magicSize + headerSize)).length := by unfold asOffset; rfl
  obtain ⟨f', h3, h4⟩ := wrote_align (off := magicSize + headerSize) hv hc hw (Nat.lt_of_lt_of_le (pad_lt _) hfuel)
    (by rw [List.length_nil, Nat.add_zero, ← hAs]; exact hs)
  rw [length_magic, h3]
  simp only
  refine ⟨f', by rw [hAs], ?_⟩
  rw [List.nil_append] at h4
  exact h4

theorem size_pool (s : Sections) : fileSize s = poolOffset s + s.pool.length := by
  unfold fileSize bodyBytes poolOffset countryOffset netOffset treeOffset asOffset
  simp only [List.length_append]
  omega

theorem offset_le (s : Sections) : asOffset ≤ treeOffset s ∧ treeOffset s ≤ netOffset s ∧ netOffset s ≤ countryOffset s ∧
    countryOffset s ≤ poolOffset s := by
  refine ⟨?_, ?_, ?_, ?_⟩
  · unfold treeOffset; omega
  · unfold netOffset; omega
  · unfold countryOffset; omega
  · unfold poolOffset; omega

/-- The sections -/
theorem wrote_body (hv : IsFile d can view) (hc : CanBody can size) {fuel : Nat} (hfuel : pageSize ≤ fuel) (e : WEnv K) (w : Writer K)
    {s : Sections} (hs : fileSize s ≤ size) {f : σ} (hf : Wrote old (view f) (padding (magicSize + headerSize))) :
    ∃ f', ioBody d fuel e w s f asOffset = .ok (makeHeader e w s, f') ∧ Wrote old (view f') (bodyBytes s) := by
  rw [size_pool] at hs
  obtain ⟨l1, l2, l3, l4⟩ := offset_le s
  obtain ⟨f1, a1, b1⟩ := wrote_section (off := asOffset) (k := asSize) (b := s.ases) hv hc hfuel hf (by decide) (by
    have : magicSize + headerSize + (padding (magicSize + headerSize)).length = asOffset := rfl
    have : treeOffset s = asOffset + s.ases.length + (padding (asOffset + s.ases.length)).length := rfl
    omega)
  obtain ⟨f2, a2, b2⟩ := wrote_section (off := treeOffset s) (k := nodeSize) (b := s.tree) hv hc hfuel b1 (by decide) (by
    have : magicSize + headerSize + (padding (magicSize + headerSize)).length = asOffset := rfl
    have : treeOffset s = asOffset + s.ases.length + (padding (asOffset + s.ases.length)).length := rfl
    have : netOffset s = treeOffset s + s.tree.length + (padding (treeOffset s + s.tree.length)).length := rfl
    simp only [List.length_append]
    omega)
  obtain ⟨f3, a3, b3⟩ := wrote_section (off := netOffset s) (k := netSize) (b := s.nets) hv hc hfuel b2 (by decide) (by
    have : magicSize + headerSize + (padding (magicSize + headerSize)).length = asOffset := rfl
    have : treeOffset s = asOffset + s.ases.length + (padding (asOffset + s.ases.length)).length := rfl
    have : netOffset s = treeOffset s + s.tree.length + (padding (treeOffset s + s.tree.length)).length := rfl
    have : countryOffset s = netOffset s + s.nets.length + (padding (netOffset s + s.nets.length)).length := rfl
    simp only [List.length_append]
    omega)
  obtain ⟨f4, a4, b4⟩ := wrote_section (off := countryOffset s) (k := countrySize) (b := s.countries) hv hc hfuel b3 (by decide) (by
    have : magicSize + headerSize + (padding (magicSize + headerSize)).length = asOffset := rfl
    have : treeOffset s = asOffset + s.ases.length + (padding (asOffset + s.ases.length)).length := rfl
    have : netOffset s = treeOffset s + s.tree.length + (padding (treeOffset s + s.tree.length)).length := rfl
    have : countryOffset s = netOffset s + s.nets.length + (padding (netOffset s + s.nets.length)).length := rfl
    have : poolOffset s = countryOffset s + s.countries.length + (padding (countryOffset s + s.countries.length)).length := rfl
    simp only [List.length_append]
    omega)
  obtain ⟨a5, b5⟩ := wrote_put (b := s.pool) hv hc b4 (by
    have : magicSize + headerSize + (padding (magicSize + headerSize)).length = asOffset := rfl
    have : treeOffset s = asOffset + s.ases.length + (padding (asOffset + s.ases.length)).length := rfl
    have : netOffset s = treeOffset s + s.tree.length + (padding (treeOffset s + s.tree.length)).length := rfl
    have : countryOffset s = netOffset s + s.nets.length + (padding (netOffset s + s.nets.length)).length := rfl
    have : poolOffset s = countryOffset s + s.countries.length + (padding (countryOffset s + s.countries.length)).length := rfl
    simp only [List.length_append]
    omega)
  refine ⟨(d.write f4 s.pool).2, ?_, b5⟩
  unfold ioBody
  rw [a1]
  simp only
  rw [show asOffset + s.ases.length + (padding (asOffset + s.ases.length)).length = treeOffset s from rfl, a2]
  simp only
  rw [show treeOffset s + s.tree.length + (padding (treeOffset s + s.tree.length)).length = netOffset s from rfl, a3]
  simp only
  rw [show netOffset s + s.nets.length + (padding (netOffset s + s.nets.length)).length = countryOffset s from rfl, a4]
  simp only
  rw [show countryOffset s + s.countries.length + (padding (countryOffset s + s.countries.length)).length = poolOffset s from rfl, a5]
  rfl

/-- The file is read again, and found to be complete apart from the header. -/
theorem sign_file (hv : IsFile d can view) (sign : K → Bytes → SignOut) (key : Option K) {f : σ} (h : Header) (buf : Bytes) (len : Nat)
    {q : Bytes} (hm : (view f).1.take magicSize = Loc.magic) (hr : (view f).1.drop (magicSize + headerSize) = q) :
    (ioSign d sign key f h buf len).1 = signWith sign key (Loc.magic ++ headerBytes h [] [] ++ q) buf len ∧
      (view (ioSign d sign key f h buf len).2).1 = (view f).1 := by
  cases key with
  | none => exact ⟨rfl, rfl⟩
  | some k =>
    obtain ⟨r1, r2⟩ := hv.read f
    unfold ioSign signWith
    cases e1 : d.read f with
    | mk o f1 =>
    rw [e1] at r1 r2
    simp only at r1 r2
    subst r1
    simp only
    have hlen : ¬ (view f).1.length < magicSize := by
      have := congrArg List.length hm
      rw [List.length_take, length_magic] at this
      omega
    rw [if_neg hlen, hm, hr]
    exact ⟨rfl, r2⟩

end

end Loc
