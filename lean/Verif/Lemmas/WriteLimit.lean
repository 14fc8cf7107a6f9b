import Verif.Lemmas.WriteIo
import Verif.Lemmas.Written
/-
Lemmas for C80: the end of the function, and streams that refuse bytes
-/
namespace Loc
open Spec

variable {σ K : Type}

/-! ## The header -/

theorem finish_file {d : IoDev σ} {can : Nat → Nat → Prop} {view : σ → Bytes × Nat} {old : Bytes} (hv : IsFile d can view)
    (e : WEnv K) {w : Writer K} {f : σ} (h : Header) {q : Bytes} (hf : Wrote old (view f) q)
    (hk : ∀ sig1 len1 sig2 len2 msg, signWith e.sign w.key1 msg w.sig1 w.sig1Len = .ok (sig1, len1) →
      signWith e.sign w.key2 msg w.sig2 w.sig2Len = .ok (sig2, len2) → sig1.length ≤ sigMax ∧ sig2.length ≤ sigMax)
    (hc : can magicSize headerSize) :
    let rest := q ++ old.drop (magicSize + headerSize + q.length)
    let msg := Loc.magic ++ headerBytes h [] [] ++ rest
    match signWith e.sign w.key1 msg w.sig1 w.sig1Len with
    | .error _ => ∃ f', ioFinish d e w f h = (w, 1, f')
    | .ok (sig1, len1) =>
      match signWith e.sign w.key2 msg w.sig2 w.sig2Len with
      | .error _ => ∃ f', ioFinish d e w f h = (w, 1, f')
      | .ok (sig2, len2) =>
        ∃ f', ioFinish d e w f h = ({ w with sig1 := sig1, sig1Len := len1, sig2 := sig2, sig2Len := len2 }, 0, f') ∧
          (view f').1 = Loc.magic ++ headerBytes h (sig1.take len1) (sig2.take len2) ++ rest := by
  intro rest msg
  obtain ⟨p1, p2⟩ := sign_file hv e.sign w.key1 (f := f) (q := rest) h w.sig1 w.sig1Len hf.magic hf.rest
  unfold ioFinish
  cases e1 : ioSign d e.sign w.key1 f h w.sig1 w.sig1Len with
  | mk r1 f1 =>
  rw [e1] at p1 p2
  simp only at p1 p2
  rw [← p1]
  cases r1 with
  | error x => exact ⟨f1, rfl⟩
  | ok r1 =>
  obtain ⟨sig1, len1⟩ := r1
  simp only
  obtain ⟨q1, q2⟩ := sign_file hv e.sign w.key2 (f := f1) (q := rest) h w.sig2 w.sig2Len (by rw [p2]; exact hf.magic) (by rw [p2]; exact hf.rest)
  cases e2 : ioSign d e.sign w.key2 f1 h w.sig2 w.sig2Len with
  | mk r2 f2 =>
  rw [e2] at q1 q2
  simp only at q1 q2
  rw [← q1]
  cases r2 with
  | error x => exact ⟨f2, rfl⟩
  | ok r2 =>
  obtain ⟨sig2, len2⟩ := r2
  simp only
  obtain ⟨l1, l2⟩ := hk _ _ _ _ _ p1.symm q1.symm
  have hl : (headerBytes h (sig1.take len1) (sig2.take len2)).length = headerSize :=
    length_headerBytes h (by rw [List.length_take]; omega) (by rw [List.length_take]; omega)
  obtain ⟨s1, s2⟩ := hv.seek f2 magicSize
  cases e3 : d.seek f2 magicSize with
  | mk b f3 =>
  rw [e3] at s1 s2
  simp only at s1 s2
  subst s1
  simp only
  obtain ⟨w1, w2⟩ := hv.write f3 (headerBytes h (sig1.take len1) (sig2.take len2)) (by rw [s2, hl]; exact hc)
  rw [hl] at w1
  rw [w1, if_neg (Nat.lt_irrefl _)]
  generalize (d.write f3 (headerBytes h (sig1.take len1) (sig2.take len2))).2 = f4 at w2 ⊢
  obtain ⟨t1, t2⟩ := hv.seekEnd f4
  cases e5 : d.seekEnd f4 with
  | mk b f5 =>
  rw [e5] at t1 t2
  simp only at t1 t2
  subst t1
  refine ⟨d.flush f5, rfl, ?_⟩
  rw [hv.flush, t2, w2, s2]
  simp only
  rw [q2, p2]
  have hne : headerBytes h (sig1.take len1) (sig2.take len2) ≠ [] := by
    intro h0
    rw [h0] at hl
    exact absurd hl (by decide)
  have hlen : magicSize ≤ (view f).1.length := by
    have := congrArg List.length hf.magic
    rw [List.length_take, length_magic] at this
    omega
  rw [overlay_ne hne, hf.magic, Nat.sub_eq_zero_of_le hlen, List.replicate_zero, List.append_nil, hl, hf.rest]

/-- Nothing but a failing seek is noticed without keys. -/
theorem finish_blind (d : IoDev σ) (hs : (∀ s p, (d.seek s p).1 = true) ∧ ∀ s, (d.seekEnd s).1 = true) (e : WEnv K) {w : Writer K}
    (h1 : w.key1 = none) (h2 : w.key2 = none) (f : σ) (h : Header) : ∃ f', ioFinish d e w f h = (w, 0, f') := by
  unfold ioFinish
  rw [h1, h2]
  simp only [ioSign]
  have s1 := hs.1 f magicSize
  cases e3 : d.seek f magicSize with
  | mk b f3 =>
  rw [e3] at s1
  simp only at s1
  subst s1
  simp only
  generalize d.write f3 (headerBytes h (w.sig1.take w.sig1Len) (w.sig2.take w.sig2Len)) = r
  obtain ⟨n, f4⟩ := r
  simp only
  split
  · exact ⟨f4, by cases w; simp only at h1 h2; subst h1; subst h2; rfl⟩
  · have t1 := hs.2 f4
    cases e5 : d.seekEnd f4 with
    | mk b f5 =>
    rw [e5] at t1
    simp only at t1
    subst t1
    exact ⟨d.flush f5, by cases w; simp only at h1 h2; subst h1; subst h2; rfl⟩

theorem align_error (d : IoDev σ) {fuel : Nat} {f : σ} {off : Nat} {x : Fault} (h : ioAlign d fuel f off = .error x) : x = .diverge := by
  induction fuel generalizing f off with
  | zero => cases h; rfl
  | succ fuel ih =>
    have hu : ioAlign d (fuel + 1) f off =
      if off % pageSize = 0 then .ok (off, f) else ioAlign d fuel (d.write f [0]).2 (off + (d.write f [0]).1) := rfl
    rw [hu] at h
    split at h
    · cases h
    · exact ih h

theorem body_error (d : IoDev σ) {fuel : Nat} {e : WEnv K} {w : Writer K} {s : Sections} {f : σ} {off : Nat} {x : Fault}
    (h : ioBody d fuel e w s f off = .error x) : x = .diverge := by
  unfold ioBody at h
  split at h
  · rename_i y hy
    cases h
    exact align_error d hy
  · split at h
    · rename_i y hy
      cases h
      exact align_error d hy
    · split at h
      · rename_i y hy
        cases h
        exact align_error d hy
      · split at h
        · rename_i y hy
          cases h
          exact align_error d hy
        · cases h

theorem start_blind (d : IoDev σ) (hs : (∀ s p, (d.seek s p).1 = true) ∧ ∀ s p, (d.seekBy s p).1 = true) (fuel : Nat) (f : σ) :
    ioStart d fuel f = .error .diverge ∨ ∃ off f', ioStart d fuel f = .ok (some off, f') := by
  unfold ioStart
  have s1 := hs.1 f 0
  cases e1 : d.seek f 0 with
  | mk b f1 =>
  rw [e1] at s1
  simp only at s1
  subst s1
  simp only
  generalize d.write f1 magic = r
  obtain ⟨n, f2⟩ := r
  simp only
  have s3 := hs.2 f2 headerSize
  cases e3 : d.seekBy f2 headerSize with
  | mk b f3 =>
  rw [e3] at s3
  simp only at s3
  subst s3
  simp only
  cases e4 : ioAlign d fuel f3 (n + headerSize) with
  | error x =>
    left
    rw [align_error d e4]
  | ok r =>
    right
    exact ⟨r.1, r.2, rfl⟩

/-! ## A limit -/

theorem lim_write (R : Nat) (f : Bytes × Nat) (b : Bytes) :
    ((limited R).write f b).1 = min b.length (R - f.2) ∧ ((limited R).write f b).2.2 = f.2 + min b.length (R - f.2) := by
  have hm : min (min b.length (R - f.2)) b.length = min b.length (R - f.2) := by omega
  refine ⟨hm, ?_⟩
  show f.2 + min (min b.length (R - f.2)) b.length = _
  rw [hm]

theorem lim_records (R : Nat) {l : List Bytes} {f : Bytes × Nat} (hf : f.2 ≤ R) (off : Nat) :
    (ioRecords (limited R) f off l).1 = off + (min R (f.2 + l.flatten.length) - f.2) ∧
      (ioRecords (limited R) f off l).2.2 = min R (f.2 + l.flatten.length) := by
  induction l generalizing f off with
  | nil =>
    have h1 : min R (f.2 + ([] : List Bytes).flatten.length) = f.2 := by
      simp only [List.flatten_nil, List.length_nil]
      omega
    rw [h1, Nat.sub_self]
    exact ⟨rfl, rfl⟩
  | cons b l ih =>
    have hu : ioRecords (limited R) f off (b :: l) =
      ioRecords (limited R) ((limited R).write f b).2 (off + ((limited R).write f b).1) l := rfl
    obtain ⟨h1, h2⟩ := lim_write R f b
    obtain ⟨h3, h4⟩ := ih (f := ((limited R).write f b).2) (by rw [h2]; omega) (off + ((limited R).write f b).1)
    rw [hu, h3, h4, h1, h2, List.flatten_cons, List.length_append]
    constructor <;> omega

theorem lim_align (R : Nat) (fuel : Nat) {f : Bytes × Nat} {x : Nat} (hf : f.2 = x) :
    ioAlign (limited R) fuel f x = .error .diverge ∨
    ∃ f', ioAlign (limited R) fuel f x = .ok (x + (padding x).length, f') ∧ f'.2 = x + (padding x).length ∧
      (x % pageSize = 0 ∨ x + (padding x).length ≤ R) := by
  induction fuel generalizing f x with
  | zero => exact .inl rfl
  | succ fuel ih =>
    have hu : ioAlign (limited R) (fuel + 1) f x =
      if x % pageSize = 0 then .ok (x, f) else ioAlign (limited R) fuel ((limited R).write f [0]).2 (x + ((limited R).write f [0]).1) := rfl
    by_cases h : x % pageSize = 0
    · right
      rw [hu, if_pos h, pad_aligned h]
      exact ⟨f, rfl, hf, .inl h⟩
    · rw [hu, if_neg h]
      obtain ⟨h1, h2⟩ := lim_write R f [0]
      simp only [List.length_cons, List.length_nil] at h1 h2
      rw [hf] at h1 h2
      rcases ih (f := ((limited R).write f [0]).2) (x := x + ((limited R).write f [0]).1) (by rw [h1, h2]) with h3 | ⟨f', h3, h4, h5⟩
      · exact .inl h3
      · right
        by_cases hR : x < R
        · have h6 : ((limited R).write f [0]).1 = 1 := by omega
          rw [h6] at h3 h4 h5
          rw [h6, pad_step h]
          simp only [List.length_cons]
          rw [show x + ((padding (x + 1)).length + 1) = x + 1 + (padding (x + 1)).length by omega]
          refine ⟨f', h3, h4, .inr ?_⟩
          rcases h5 with h5 | h5
          · rw [pad_aligned h5, List.length_nil]
            omega
          · exact h5
        · have h6 : ((limited R).write f [0]).1 = 0 := by omega
          rw [h6, Nat.add_zero] at h3 h4 h5
          rw [h6, Nat.add_zero]
          exact ⟨f', h3, h4, h5⟩

theorem lim_align_ok (R : Nat) {fuel : Nat} {f : Bytes × Nat} {x : Nat} (hf : f.2 = x) (hfuel : (padding x).length < fuel)
    (h : x % pageSize = 0 ∨ x + (padding x).length ≤ R) : ∃ r, ioAlign (limited R) fuel f x = .ok r := by
  induction fuel generalizing f x with
  | zero => exact absurd hfuel (Nat.not_lt_zero _)
  | succ fuel ih =>
    have hu : ioAlign (limited R) (fuel + 1) f x =
      if x % pageSize = 0 then .ok (x, f) else ioAlign (limited R) fuel ((limited R).write f [0]).2 (x + ((limited R).write f [0]).1) := rfl
    by_cases h0 : x % pageSize = 0
    · rw [hu, if_pos h0]
      exact ⟨_, rfl⟩
    · rw [hu, if_neg h0]
      obtain ⟨h1, h2⟩ := lim_write R f [0]
      simp only [List.length_cons, List.length_nil] at h1 h2
      rw [hf] at h1 h2
      have h3 : x + (padding x).length ≤ R := by
        rcases h with h | h
        · exact absurd h h0
        · exact h
      rw [pad_step h0] at h3 hfuel
      simp only [List.length_cons] at h3 hfuel
      have h6 : ((limited R).write f [0]).1 = 1 := by omega
      rw [h6]
      exact ih (by rw [h2]; omega) (by omega) (.inr (by omega))

theorem lim_section (R : Nat) (fuel : Nat) {f : Bytes × Nat} {x k : Nat} {b : Bytes} (hk : 0 < k) (hf : f.2 = x) (hx : x ≤ R) :
    ioSection (limited R) fuel f x k b = .error .diverge ∨
    ∃ y f', ioSection (limited R) fuel f x k b = .ok (y, f') ∧ f'.2 = y ∧ y ≤ R ∧
      (R % pageSize ≠ 0 ∨ x + b.length + (padding (x + b.length)).length ≤ R → y = x + b.length + (padding (x + b.length)).length) := by
  have hfl := sliceRecords_flatten hk (Nat.le_refl b.length)
  obtain ⟨h1, h2⟩ := lim_records R (l := sliceRecords k b.length b) (f := f) (by omega) x
  rw [hfl, hf] at h1 h2
  have hu : ioSection (limited R) fuel f x k b =
    ioAlign (limited R) fuel (ioRecords (limited R) f x (sliceRecords k b.length b)).2 (ioRecords (limited R) f x (sliceRecords k b.length b)).1 := rfl
  have h3 : (ioRecords (limited R) f x (sliceRecords k b.length b)).1 = min R (x + b.length) := by omega
  rw [hu, h3]
  rcases lim_align R fuel h2 with h4 | ⟨f', h4, h5, h6⟩
  · exact .inl h4
  · right
    refine ⟨_, f', h4, h5, ?_, ?_⟩
    · rcases h6 with h6 | h6
      · rw [pad_aligned h6, List.length_nil]
        omega
      · exact h6
    · intro h7
      have h8 : min R (x + b.length) = x + b.length := by
        rcases h7 with h7 | h7
        · by_cases hlt : x + b.length ≤ R
          · omega
          · have h9 : min R (x + b.length) = R := by omega
            rw [h9] at h6
            rcases h6 with h6 | h6
            · exact absurd h6 h7
            · have h10 := pad_step h7
              rw [h10, List.length_cons] at h6
              omega
        · omega
      rw [h8]

theorem lim_section_ok (R : Nat) {fuel : Nat} (hfuel : pageSize ≤ fuel) {f : Bytes × Nat} {x k : Nat} {b : Bytes} (hk : 0 < k)
    (hf : f.2 = x) (hx : x ≤ R) (h : R % pageSize = 0 ∨ x + b.length + (padding (x + b.length)).length ≤ R) :
    ∃ r, ioSection (limited R) fuel f x k b = .ok r := by
  have hfl := sliceRecords_flatten hk (Nat.le_refl b.length)
  obtain ⟨h1, h2⟩ := lim_records R (l := sliceRecords k b.length b) (f := f) (by omega) x
  rw [hfl, hf] at h1 h2
  have hu : ioSection (limited R) fuel f x k b =
    ioAlign (limited R) fuel (ioRecords (limited R) f x (sliceRecords k b.length b)).2 (ioRecords (limited R) f x (sliceRecords k b.length b)).1 := rfl
  have h3 : (ioRecords (limited R) f x (sliceRecords k b.length b)).1 = min R (x + b.length) := by omega
  rw [hu, h3]
  apply lim_align_ok R h2 (Nat.lt_of_lt_of_le (pad_lt _) hfuel)
  rcases h with h | h
  · right
    have hy : min R (x + b.length) ≤ R := Nat.min_le_left _ _
    generalize min R (x + b.length) = y at hy
    rw [pad_length]
    unfold pageSize at h ⊢
    omega
  · right
    rw [Nat.min_eq_right (by omega)]
    exact h

theorem asOffset_value : asOffset = 8192 := by
  unfold asOffset
  rw [pad_length]
  decide

theorem lim_start_eq (R : Nat) (fuel : Nat) (f : Bytes × Nat) : ioStart (limited R) fuel f =
    match ioAlign (limited R) fuel (((limited R).write (f.1, 0) magic).2.1, ((limited R).write (f.1, 0) magic).2.2 + headerSize)
      (((limited R).write (f.1, 0) magic).1 + headerSize) with
    | .error x => .error x
    | .ok (off, f) => .ok (some off, f) := by
  unfold ioStart
  have h1 : (limited R).seek f 0 = (true, (f.1, 0)) := rfl
  rw [h1]
  simp only
  have h2 : (limited R).seekBy ((limited R).write (f.1, 0) magic).2 headerSize = (true, (((limited R).write (f.1, 0) magic).2.1, ((limited R).write (f.1, 0) magic).2.2 + headerSize)) := rfl
  rw [h2]
  simp only
  generalize ioAlign (limited R) fuel _ _ = r
  cases r <;> rfl

theorem lim_start (R : Nat) (fuel : Nat) (f : Bytes × Nat) :
    ioStart (limited R) fuel f = .error .diverge ∨
    ∃ f', ioStart (limited R) fuel f = .ok (some asOffset, f') ∧ f'.2 = asOffset ∧ asOffset ≤ R := by
  have hu := lim_start_eq R fuel f
  obtain ⟨h1, h2⟩ := lim_write R (f.1, 0) magic
  rw [length_magic] at h1 h2
  simp only at h1 h2
  rw [hu]
  rcases lim_align R fuel (f := (((limited R).write (f.1, 0) magic).2.1, ((limited R).write (f.1, 0) magic).2.2 + headerSize))
    (x := ((limited R).write (f.1, 0) magic).1 + headerSize) (by simp only; omega) with h3 | ⟨f', h3, h4, h5⟩
  · rw [h3]
    exact .inl rfl
  · right
    rw [h3]
    have h6 : ((limited R).write (f.1, 0) magic).1 = magicSize ∧ asOffset ≤ R := by
      have hp := pad_length (((limited R).write (f.1, 0) magic).1 + headerSize)
      generalize ((limited R).write (f.1, 0) magic).1 = n at *
      have hA := asOffset_value
      have hM : magicSize = 8 := rfl
      have hH : headerSize = 4192 := rfl
      have hP : pageSize = 4096 := rfl
      rw [hH, hP] at h5 hp
      rw [hM] at h1 ⊢
      rw [hA]
      omega
    have hO : magicSize + headerSize + (padding (magicSize + headerSize)).length = asOffset := by
      unfold asOffset
      rfl
    rw [h6.1, hO] at h4 ⊢
    exact ⟨f', rfl, h4, h6.2⟩

theorem lim_start_ok (R : Nat) {fuel : Nat} (hfuel : pageSize ≤ fuel) (f : Bytes × Nat) (hR : asOffset ≤ R) :
    ∃ f', ioStart (limited R) fuel f = .ok (some asOffset, f') ∧ f'.2 = asOffset := by
  have hu := lim_start_eq R fuel f
  obtain ⟨h1, h2⟩ := lim_write R (f.1, 0) magic
  rw [length_magic] at h1 h2
  simp only at h1 h2
  have hA := asOffset_value
  have h6 : ((limited R).write (f.1, 0) magic).1 = magicSize := by
    have hM : magicSize = 8 := rfl
    omega
  rcases lim_start R fuel f with h | ⟨f', h, h', -⟩
  · exfalso
    obtain ⟨r, hr⟩ := lim_align_ok R (fuel := fuel)
      (f := (((limited R).write (f.1, 0) magic).2.1, ((limited R).write (f.1, 0) magic).2.2 + headerSize))
      (x := ((limited R).write (f.1, 0) magic).1 + headerSize) (by simp only; omega) (Nat.lt_of_lt_of_le (pad_lt _) hfuel)
      (.inr (by rw [h6]; unfold asOffset at hR; exact hR))
    rw [hu, hr] at h
    cases h
  · exact ⟨f', h, h'⟩

/-- All sections are written, or it does not end. -/
theorem lim_body (R : Nat) (fuel : Nat) (e : WEnv K) (w : Writer K) (s : Sections) {f : Bytes × Nat} (hf : f.2 = asOffset)
    (hR : asOffset ≤ R) :
    ioBody (limited R) fuel e w s f asOffset = .error .diverge ∨
    (∃ r, ioBody (limited R) fuel e w s f asOffset = .ok r) ∧ (R % pageSize ≠ 0 → poolOffset s ≤ R) := by
  unfold ioBody
  rcases lim_section R fuel (k := asSize) (b := s.ases) (by decide) hf hR with h1 | ⟨o2, f2, h1, i1, j1, k1⟩
  · rw [h1]
    exact .inl rfl
  rw [h1]
  simp only
  rcases lim_section R fuel (k := nodeSize) (b := s.tree) (by decide) i1 j1 with h2 | ⟨o3, f3, h2, i2, j2, k2⟩
  · rw [h2]
    exact .inl rfl
  rw [h2]
  simp only
  rcases lim_section R fuel (k := netSize) (b := s.nets) (by decide) i2 j2 with h3 | ⟨o4, f4, h3, i3, j3, k3⟩
  · rw [h3]
    exact .inl rfl
  rw [h3]
  simp only
  rcases lim_section R fuel (k := countrySize) (b := s.countries) (by decide) i3 j3 with h4 | ⟨o5, f5, h4, i4, j4, k4⟩
  · rw [h4]
    exact .inl rfl
  rw [h4]
  simp only
  right
  refine ⟨⟨_, rfl⟩, ?_⟩
  intro hr
  have e1 : o2 = treeOffset s := by
    have := k1 (.inl hr)
    unfold treeOffset
    exact this
  rw [e1] at k2
  have e2 : o3 = netOffset s := by
    have := k2 (.inl hr)
    unfold netOffset
    exact this
  rw [e2] at k3
  have e3 : o4 = countryOffset s := by
    have := k3 (.inl hr)
    unfold countryOffset
    exact this
  rw [e3] at k4
  have e4 : o5 = poolOffset s := by
    have := k4 (.inl hr)
    unfold poolOffset
    exact this
  rw [e4] at j4
  exact j4

theorem lim_body_ok (R : Nat) {fuel : Nat} (hfuel : pageSize ≤ fuel) (e : WEnv K) (w : Writer K) (s : Sections) {f : Bytes × Nat}
    (hf : f.2 = asOffset) (hR : asOffset ≤ R) (h : R % pageSize = 0 ∨ poolOffset s ≤ R) :
    ∃ r, ioBody (limited R) fuel e w s f asOffset = .ok r := by
  obtain ⟨l1, l2, l3, l4⟩ := offset_le s
  unfold ioBody
  obtain ⟨r1, g1⟩ := lim_section_ok R hfuel (k := asSize) (b := s.ases) (by decide) hf hR
    (h.imp id fun h => (Nat.le_trans (Nat.le_trans l2 (Nat.le_trans l3 l4)) h : treeOffset s ≤ R))
  rcases lim_section R fuel (k := asSize) (b := s.ases) (by decide) hf hR with h1 | ⟨o2, f2, h1, i1, j1, k1⟩
  · rw [h1] at g1
    cases g1
  rw [h1]
  simp only
  have m1 : R % pageSize = 0 ∨ poolOffset s ≤ R ∧ o2 = treeOffset s :=
    h.imp id fun h => ⟨h, k1 (.inr (Nat.le_trans (Nat.le_trans l2 (Nat.le_trans l3 l4)) h : treeOffset s ≤ R))⟩
  obtain ⟨r2, g2⟩ := lim_section_ok R hfuel (k := nodeSize) (b := s.tree) (by decide) i1 j1
    (m1.imp id fun h => by rw [h.2]; exact (Nat.le_trans (Nat.le_trans l3 l4) h.1 : netOffset s ≤ R))
  rcases lim_section R fuel (k := nodeSize) (b := s.tree) (by decide) i1 j1 with h2 | ⟨o3, f3, h2, i2, j2, k2⟩
  · rw [h2] at g2
    cases g2
  rw [h2]
  simp only
  have m2 : R % pageSize = 0 ∨ poolOffset s ≤ R ∧ o3 = netOffset s := m1.imp id fun h => by
    obtain ⟨h, he⟩ := h
    rw [he] at k2
    have hr : netOffset s ≤ R := Nat.le_trans (Nat.le_trans l3 l4) h
    refine ⟨h, ?_⟩
    unfold netOffset at hr ⊢
    exact k2 (.inr hr)
  obtain ⟨r3, g3⟩ := lim_section_ok R hfuel (k := netSize) (b := s.nets) (by decide) i2 j2
    (m2.imp id fun h => by rw [h.2]; exact (Nat.le_trans l4 h.1 : countryOffset s ≤ R))
  rcases lim_section R fuel (k := netSize) (b := s.nets) (by decide) i2 j2 with h3 | ⟨o4, f4, h3, i3, j3, k3⟩
  · rw [h3] at g3
    cases g3
  rw [h3]
  simp only
  have m3 : R % pageSize = 0 ∨ poolOffset s ≤ R ∧ o4 = countryOffset s := m2.imp id fun h => by
    obtain ⟨h, he⟩ := h
    rw [he] at k3
    have hr : countryOffset s ≤ R := Nat.le_trans l4 h
    refine ⟨h, ?_⟩
    unfold countryOffset at hr ⊢
    exact k3 (.inr hr)
  obtain ⟨r4, g4⟩ := lim_section_ok R hfuel (k := countrySize) (b := s.countries) (by decide) i3 j3
    (m3.imp id fun h => by rw [h.2]; exact (h.1 : poolOffset s ≤ R))
  rw [g4]
  exact ⟨_, rfl⟩

/-! ## The file does not grow beyond the limit -/

theorem overlay_length (data b : Bytes) (pos : Nat) : (overlay data pos b).length ≤ max data.length (pos + b.length) := by
  by_cases hb : b = []
  · rw [hb]
    exact Nat.le_max_left _ _
  · rw [overlay_ne hb]
    simp only [List.length_append, List.length_take, List.length_replicate, List.length_drop]
    omega

theorem lim_write_len (R : Nat) (f : Bytes × Nat) (b : Bytes) (hf : f.1.length ≤ R) : ((limited R).write f b).2.1.length ≤ R := by
  show (overlay f.1 f.2 (b.take (min b.length (R - f.2)))).length ≤ R
  by_cases h : f.2 ≤ R
  · have := overlay_length f.1 (b.take (min b.length (R - f.2))) f.2
    rw [List.length_take] at this
    omega
  · have h0 : min b.length (R - f.2) = 0 := by omega
    rw [h0, List.take_zero]
    exact hf

theorem lim_records_len (R : Nat) (l : List Bytes) {f : Bytes × Nat} (off : Nat) (hf : f.1.length ≤ R) :
    (ioRecords (limited R) f off l).2.1.length ≤ R := by
  induction l generalizing f off with
  | nil => exact hf
  | cons b l ih => exact ih _ (lim_write_len R f b hf)

theorem lim_align_len (R : Nat) {fuel : Nat} {f : Bytes × Nat} {off : Nat} {r : Nat × Bytes × Nat} (hf : f.1.length ≤ R)
    (h : ioAlign (limited R) fuel f off = .ok r) : r.2.1.length ≤ R := by
  induction fuel generalizing f off with
  | zero => cases h
  | succ fuel ih =>
    have hu : ioAlign (limited R) (fuel + 1) f off =
      if off % pageSize = 0 then .ok (off, f) else ioAlign (limited R) fuel ((limited R).write f [0]).2 (off + ((limited R).write f [0]).1) := rfl
    rw [hu] at h
    split at h
    · cases h
      exact hf
    · exact ih (lim_write_len R f [0] hf) h

theorem lim_start_len (R : Nat) {fuel : Nat} {f : Bytes × Nat} {r : Option Nat × Bytes × Nat} (hf : f.1.length ≤ R)
    (h : ioStart (limited R) fuel f = .ok r) : r.2.1.length ≤ R := by
  have hu := lim_start_eq R fuel f
  rw [hu] at h
  split at h
  · cases h
  · rename_i off f' he
    cases h
    have hw := lim_write_len R (f.1, 0) magic hf
    exact lim_align_len R (f := (((limited R).write (f.1, 0) magic).2.1, ((limited R).write (f.1, 0) magic).2.2 + headerSize)) hw he

theorem lim_body_len (R : Nat) {fuel : Nat} {e : WEnv K} {w : Writer K} {s : Sections} {f : Bytes × Nat} {off : Nat}
    {r : Header × Bytes × Nat} (hf : f.1.length ≤ R) (h : ioBody (limited R) fuel e w s f off = .ok r) : r.2.1.length ≤ R := by
  unfold ioBody at h
  split at h
  · cases h
  · rename_i o2 f2 h2
    have g2 := lim_align_len R (lim_records_len R _ _ hf) h2
    split at h
    · cases h
    · rename_i o3 f3 h3
      have g3 := lim_align_len R (lim_records_len R _ _ g2) h3
      split at h
      · cases h
      · rename_i o4 f4 h4
        have g4 := lim_align_len R (lim_records_len R _ _ g3) h4
        split at h
        · cases h
        · rename_i o5 f5 h5
          have g5 := lim_align_len R (lim_records_len R _ _ g4) h5
          cases h
          exact lim_write_len R f5 s.pool g5

theorem lim_finish_len (R : Nat) (e : WEnv K) (w : Writer K) {f : Bytes × Nat} (h : Header) (hf : f.1.length ≤ R) :
    (ioFinish (limited R) e w f h).2.2.1.length ≤ R := by
  have hsign : ∀ (key : Option K) (f : Bytes × Nat) buf len, f.1.length ≤ R →
      (ioSign (limited R) e.sign key f h buf len).2.1.length ≤ R := by
    intro key f buf len hf
    cases key with
    | none => exact hf
    | some k =>
      have hu : ioSign (limited R) e.sign (some k) f h buf len =
        if f.1.length < magicSize then (.error (.err 1), (f.1, f.1.length))
        else (createSignature e.sign k (f.1.take magicSize ++ headerBytes h [] [] ++ f.1.drop (magicSize + headerSize)) buf, (f.1, f.1.length)) := rfl
      rw [hu]
      split
      · exact hf
      · exact hf
  unfold ioFinish
  have g1 := hsign w.key1 f w.sig1 w.sig1Len hf
  cases e1 : ioSign (limited R) e.sign w.key1 f h w.sig1 w.sig1Len with
  | mk r1 f1 =>
  rw [e1] at g1
  cases r1 with
  | error x => exact g1
  | ok r1 =>
  obtain ⟨sig1, len1⟩ := r1
  simp only
  have g2 := hsign w.key2 f1 w.sig2 w.sig2Len g1
  cases e2 : ioSign (limited R) e.sign w.key2 f1 h w.sig2 w.sig2Len with
  | mk r2 f2 =>
  rw [e2] at g2
  cases r2 with
  | error x => exact g2
  | ok r2 =>
  obtain ⟨sig2, len2⟩ := r2
  simp only
  have g3 := lim_write_len R (f2.1, magicSize) (headerBytes h (sig1.take len1) (sig2.take len2)) g2
  rw [show (limited R).seek f2 magicSize = (true, (f2.1, magicSize)) from rfl]
  simp only
  generalize (limited R).write (f2.1, magicSize) (headerBytes h (sig1.take len1) (sig2.take len2)) = r at g3 ⊢
  split
  · exact g3
  · exact g3

end Loc
