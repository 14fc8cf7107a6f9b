import Verif.Lemmas.WriteLimit
import Verif.Props.File
/-
C80: A write that succeeds has written the complete database; if it cannot be written, the function fails.  It returns always.
-/
namespace Loc.Props
open Loc Loc.Spec

variable {σ K : Type}

theorem fileDev_isFile {taken : Nat → Nat → Nat} {can : Nat → Nat → Prop} (h : ∀ pos len, can pos len → taken pos len = len) :
    IsFile (fileDev taken) can id where
  write s b hc := by
    have ht : taken s.2 b.length = b.length := h _ _ hc
    refine ⟨?_, ?_⟩
    · show min (taken s.2 b.length) b.length = _
      rw [ht, Nat.min_self]
    · show (overlay s.1 s.2 (b.take (taken s.2 b.length)), s.2 + min (taken s.2 b.length) b.length) = _
      rw [ht, Nat.min_self, List.take_length]
      rfl
  seek s p := ⟨rfl, rfl⟩
  seekBy s p := ⟨rfl, rfl⟩
  seekEnd s := ⟨rfl, rfl⟩
  read s := ⟨rfl, rfl⟩
  flush s := rfl

/-- On a file that takes everything up to the size of the database, the write ends as described elsewhere (`write_read`, …): with
    the complete database in the file and success, or with an error because of the keys or the version.  Partial: nothing is said
    about files that do not take everything, for which the claim is false (`writing_blind`, `writing_hangs`, …). -/
theorem writing_exact_partial {ctz0 : Nat} {key1 key2 : Option K} {ops : List (WOp K)} {w : Writer K} (hw : Writes ctz0 key1 key2 ops w)
    {e : WEnv K} (he : e.ctz0 = ctz0) {d : IoDev σ} {can : Nat → Nat → Prop} {view : σ → Bytes × Nat} (hv : IsFile d can view)
    (hc : ∀ s w1, writeSections e w = .ok (s, w1) → ∀ pos len, pos + len ≤ fileSize s → can pos len)
    {fuel : Nat} (hfuel : pageSize ≤ fuel) (f : σ) (version : Nat) :
    (∀ w' b, writerWrite e w (view f).1 version = .ok (w', some b) →
      ∃ f', ioWrite d fuel e w f version = .ok (w', 0, f') ∧ (view f').1 = b) ∧
    (∀ w', writerWrite e w (view f).1 version = .ok (w', none) → ∃ f', ioWrite d fuel e w f version = .ok (w', 1, f')) := by
  cases hver : writeVersion version with
  | error x =>
    have h1 : writerWrite e w (view f).1 version = .ok (w, none) := by
      unfold writerWrite
      rw [hver]
    have h2 : ioWrite d fuel e w f version = .ok (w, 1, f) := by
      unfold ioWrite
      rw [hver]
    rw [h1, h2]
    refine ⟨fun w' b h => ?_, fun w' h => ?_⟩
    · cases h
    · cases h
      exact ⟨f, rfl⟩
  | ok u =>
    cases hsec : writeSections e w with
    | error x =>
      have h1 : writerWrite e w (view f).1 version = .error x := by
        unfold writerWrite
        rw [hver]
        simp only
        rw [hsec]
      rw [h1]
      refine ⟨fun w' b h => ?_, fun w' h => ?_⟩
      · cases h
      · cases h
    | ok r =>
      obtain ⟨s, w1⟩ := r
      have hcan := hc s w1 hsec
      have hi := writeSections_inv (winv hw) he hsec
      have hsz := size_pool s
      obtain ⟨l1, l2, l3, l4⟩ := offset_le s
      have hA := asOffset_value
      have hM : magicSize = 8 := rfl
      have hH : headerSize = 4192 := rfl
      have hbody : CanBody can (fileSize s) := fun pos len _ h => hcan pos len h
      obtain ⟨f1, a1, b1⟩ := wrote_start hv hbody (hcan 0 magicSize (by omega)) hfuel (by omega) f
      obtain ⟨f2, a2, b2⟩ := wrote_body hv hbody hfuel e w1 (Nat.le_refl (fileSize s)) b1
      have h2 : ioWrite d fuel e w f version = .ok (ioFinish d e w1 f2 (makeHeader e w1 s)) := by
        unfold ioWrite
        rw [hver]
        simp only
        rw [hsec]
        simp only
        rw [a1]
        simp only
        rw [a2]
      have h3 := finish_file hv e (w := w1) (makeHeader e w1 s) b2 (by
        intro sig1 len1 sig2 len2 msg g1 g2
        exact ⟨Nat.le_of_eq (signWith_spec hi.s1 hi.l1 (fun h => hi.z1 (by rw [← hi.k1]; exact h)) g1).1,
          Nat.le_of_eq (signWith_spec hi.s2 hi.l2 (fun h => hi.z2 (by rw [← hi.k2]; exact h)) g2).1⟩)
        (hcan magicSize headerSize (by omega))
      unfold writerWrite
      rw [hver]
      simp only
      rw [hsec]
      simp only
      rw [h2]
      simp only at h3
      generalize signWith e.sign w1.key1 _ w1.sig1 w1.sig1Len = r1 at h3 ⊢
      generalize signWith e.sign w1.key2 _ w1.sig2 w1.sig2Len = r2 at h3 ⊢
      cases r1 with
      | error x =>
        obtain ⟨f', h3⟩ := h3
        refine ⟨fun w' b h => ?_, fun w' h => ?_⟩
        · cases h
        · cases h
          exact ⟨f', by rw [h3]⟩
      | ok r1 =>
        cases r2 with
        | error x =>
          obtain ⟨f', h3⟩ := h3
          refine ⟨fun w' b h => ?_, fun w' h => ?_⟩
          · cases h
          · cases h
            exact ⟨f', by rw [h3]⟩
        | ok r2 =>
          obtain ⟨f', h3, h4⟩ := h3
          refine ⟨fun w' b h => ?_, fun w' h => ?_⟩
          · cases h
            exact ⟨f', by rw [h3], h4⟩
          · cases h

/-- A file on a disk with enough space is such a stream. -/
example (size : Nat) : IsFile (limited size) (fun pos len => pos + len ≤ size) id :=
  fileDev_isFile fun pos len h => by omega

/-- Without keys no failure of writing is noticed: whatever `fwrite` and `fflush` do, the function returns success, or never. -/
theorem writing_blind {ctz0 : Nat} (h0 : 8 ≤ ctz0) {ops : List (WOp K)} (hs : ∀ op ∈ ops, ShortOp op) {w : Writer K}
    (hw : Writes ctz0 none none ops w) {e : WEnv K} (he : e.ctz0 = ctz0) {version : Nat} (hver : version ≤ 1) (d : IoDev σ)
    (hd : (∀ s p, (d.seek s p).1 = true) ∧ (∀ s p, (d.seekBy s p).1 = true) ∧ ∀ s, (d.seekEnd s).1 = true) (fuel : Nat) (f : σ) :
    ioWrite d fuel e w f version = .error .diverge ∨ ∃ w' f', ioWrite d fuel e w f version = .ok (w', 0, f') := by
  obtain ⟨⟨s, w1⟩, hsec⟩ := writeSections_total h0 (winv hw) hs he
  have hi := writeSections_inv (winv hw) he hsec
  have hv : writeVersion version = .ok () := by
    unfold writeVersion
    split
    · rfl
    · rw [if_pos (by omega)]
  unfold ioWrite
  rw [hv]
  simp only
  rw [hsec]
  simp only
  rcases start_blind d ⟨hd.1, hd.2.1⟩ fuel f with h1 | ⟨off, f1, h1⟩
  · rw [h1]
    exact .inl rfl
  · rw [h1]
    simp only
    cases h2 : ioBody d fuel e w1 s f1 off with
    | error x =>
      rw [body_error d h2]
      exact .inl rfl
    | ok r =>
      obtain ⟨f', h3⟩ := finish_blind d ⟨hd.1, hd.2.2⟩ e hi.k1 hi.k2 r.2 r.1
      right
      exact ⟨w1, f', by simp only [h3]⟩

/-- With a limit that is too small for the database, the file is too small whenever the function returns, also with success. -/
theorem writing_short {e : WEnv K} {w : Writer K} {s : Sections} {w1 : Writer K} (hsec : writeSections e w = .ok (s, w1)) {version limit : Nat}
    (hl : limit < fileSize s) {fuel : Nat} {f f' : Bytes × Nat} (hf : f.1.length ≤ limit) {w' : Writer K} {r : Nat}
    (h : ioWrite (limited limit) fuel e w f version = .ok (w', r, f')) : f'.1.length < fileSize s := by
  refine Nat.lt_of_le_of_lt ?_ hl
  unfold ioWrite at h
  split at h
  · cases h
    exact hf
  · rw [hsec] at h
    simp only at h
    split at h
    · cases h
    · rename_i f1 h1
      cases h
      exact lim_start_len limit hf h1
    · rename_i off f1 h1
      have g1 := lim_start_len limit hf h1
      split at h
      · cases h
      · rename_i hd f2 h2
        have g2 := lim_finish_len limit e w1 hd (lim_body_len limit g1 h2)
        cases hfin : ioFinish (limited limit) e w1 f2 hd with
        | mk a bc =>
          rw [hfin] at h g2
          cases h
          exact g2

/-- When exactly the function never returns, on a stream with a limit that is not buffered: there is no space for the strings,
    and either the limit lies within a page, or there is no space for the first page of data. -/
theorem writing_hangs {ctz0 : Nat} (h0 : 8 ≤ ctz0) {ops : List (WOp K)} (hs : ∀ op ∈ ops, ShortOp op) {w : Writer K}
    (hw : Writes ctz0 none none ops w) {e : WEnv K} (he : e.ctz0 = ctz0) {version : Nat} (hver : version ≤ 1) (limit : Nat) (f : Bytes × Nat) :
    ∃ s w1, writeSections e w = .ok (s, w1) ∧
      ((∀ fuel, ioWrite (limited limit) fuel e w f version = .error .diverge) ↔
        limit < poolOffset s ∧ (limit % pageSize ≠ 0 ∨ limit < asOffset)) := by
  obtain ⟨⟨s, w1⟩, hsec⟩ := writeSections_total h0 (winv hw) hs he
  have hv : writeVersion version = .ok () := by
    unfold writeVersion
    split
    · rfl
    · rw [if_pos (by omega)]
  refine ⟨s, w1, hsec, ?_⟩
  have hu : ∀ fuel, ioWrite (limited limit) fuel e w f version =
      match ioStart (limited limit) fuel f with
      | .error x => .error x
      | .ok (none, f) => .ok (w1, 1, f)
      | .ok (some off, f) =>
      match ioBody (limited limit) fuel e w1 s f off with
      | .error x => .error x
      | .ok (h, f) => .ok (ioFinish (limited limit) e w1 f h) := by
    intro fuel
    unfold ioWrite
    rw [hv]
    simp only
    rw [hsec]
    simp only
    rcases ioStart (limited limit) fuel f with x | ⟨off, f'⟩
    · rfl
    · cases off with
      | none => rfl
      | some off =>
        simp only
        cases ioBody (limited limit) fuel e w1 s f' off <;> rfl
  constructor
  · intro h
    refine Classical.byContradiction fun hn => ?_
    have hle : asOffset ≤ poolOffset s := by
      obtain ⟨l1, l2, l3, l4⟩ := offset_le s
      omega
    have hA : asOffset ≤ limit := by omega
    have hB : limit % pageSize = 0 ∨ poolOffset s ≤ limit := by omega
    have h1 := h pageSize
    rw [hu] at h1
    obtain ⟨f1, g1, g2⟩ := lim_start_ok limit (Nat.le_refl pageSize) f hA
    rw [g1] at h1
    simp only at h1
    obtain ⟨r, g3⟩ := lim_body_ok limit (Nat.le_refl pageSize) e w1 s g2 hA hB
    rw [g3] at h1
    cases h1
  · intro h fuel
    rw [hu]
    rcases lim_start limit fuel f with g1 | ⟨f1, g1, g2, g3⟩
    · rw [g1]
    · rw [g1]
      simp only
      rcases lim_body limit fuel e w1 s g2 g3 with g4 | ⟨-, g5⟩
      · rw [g4]
      · exfalso
        rcases h.2 with h2 | h2
        · have := g5 h2
          omega
        · omega

/-- A stream that was opened for reading: the function never returns, whatever the writer holds. -/
theorem writing_readonly {ctz0 : Nat} (h0 : 8 ≤ ctz0) {ops : List (WOp K)} (hs : ∀ op ∈ ops, ShortOp op) {w : Writer K}
    (hw : Writes ctz0 none none ops w) {e : WEnv K} (he : e.ctz0 = ctz0) {version : Nat} (hver : version ≤ 1) (f : Bytes × Nat) (fuel : Nat) :
    ioWrite readOnly fuel e w f version = .error .diverge := by
  obtain ⟨s, w1, -, h⟩ := writing_hangs h0 hs hw he hver 0 f
  have heq : readOnly = limited 0 := by
    unfold readOnly limited
    congr 1
    funext pos len
    omega
  rw [heq]
  have hle : asOffset ≤ poolOffset s := by
    obtain ⟨l1, l2, l3, l4⟩ := offset_le s
    omega
  have hA := asOffset_value
  exact h.mpr ⟨by omega, .inr (by omega)⟩ fuel

theorem header_asOffset (h : Header) (s1 s2 rest : Bytes) : (magic ++ headerBytes h s1 s2 ++ rest)[30]? = (be32 h.asOff)[2]? := by
  unfold headerBytes headerFields
  simp only [List.append_assoc]
  rw [List.getElem?_append_right (by rw [length_magic]; decide), length_magic]
  rw [List.getElem?_append_right (by rw [length_be64]; decide), length_be64]
  rw [List.getElem?_append_right (by rw [length_be32]; decide), length_be32]
  rw [List.getElem?_append_right (by rw [length_be32]; decide), length_be32]
  rw [List.getElem?_append_right (by rw [length_be32]; decide), length_be32]
  rw [List.getElem?_append_left (by rw [length_be32]; decide)]
  rfl

/-- The disk becomes full when the header is written: the function returns success, and every byte of the header of the new file
    is zero. -/
theorem writing_headerless {ctz0 : Nat} (h0 : 8 ≤ ctz0) {ops : List (WOp K)} (hs : ∀ op ∈ ops, ShortOp op) {w : Writer K}
    (hw : Writes ctz0 none none ops w) {e : WEnv K} (he : e.ctz0 = ctz0) {version : Nat} (hver : version ≤ 1) {fuel : Nat}
    (hfuel : pageSize ≤ fuel) :
    ∃ w' data pos, ioWrite fullAtHeader fuel e w ([], 0) version = .ok (w', 0, (data, pos)) ∧ data.take magicSize = magic ∧
      (∀ (i : Nat) (x : Byte), magicSize ≤ i → i < magicSize + headerSize → data[i]? = some x → x = 0) ∧
      ∃ w'' b, writerWrite e w [] version = .ok (w'', some b) ∧ data ≠ b := by
  obtain ⟨⟨s, w1⟩, hsec⟩ := writeSections_total h0 (winv hw) hs he
  have hi := writeSections_inv (winv hw) he hsec
  have hv : writeVersion version = .ok () := by
    unfold writeVersion
    split
    · rfl
    · rw [if_pos (by omega)]
  have hfile : IsFile fullAtHeader (fun pos _ => pos ≠ magicSize) id := fileDev_isFile fun pos len h => if_neg h
  have hM : magicSize = 8 := rfl
  have hH : headerSize = 4192 := rfl
  have hbody : CanBody (fun pos _ => pos ≠ magicSize) (max asOffset (fileSize s)) := fun pos len h _ => by
    show pos ≠ magicSize
    omega
  obtain ⟨f1, a1, b1⟩ := wrote_start hfile hbody (by show 0 ≠ magicSize; omega) hfuel (Nat.le_max_left _ _) ([], 0)
  obtain ⟨f2, a2, b2⟩ := wrote_body hfile hbody hfuel e w1 (Nat.le_max_right asOffset (fileSize s)) b1
  have hfin : ioFinish fullAtHeader e w1 f2 (makeHeader e w1 s) = (w1, 0, (f2.1, magicSize)) := by
    unfold ioFinish
    rw [hi.k1, hi.k2]
    simp only [ioSign]
    have hw0 : fullAtHeader.write (f2.1, magicSize) (headerBytes (makeHeader e w1 s) (w1.sig1.take w1.sig1Len) (w1.sig2.take w1.sig2Len)) =
        (0, (f2.1, magicSize)) := by
      generalize headerBytes (makeHeader e w1 s) (w1.sig1.take w1.sig1Len) (w1.sig2.take w1.sig2Len) = b
      show (min (if magicSize = magicSize then 0 else b.length) b.length,
        (overlay f2.1 magicSize (b.take (if magicSize = magicSize then 0 else b.length)),
          magicSize + min (if magicSize = magicSize then 0 else b.length) b.length)) = _
      rw [if_pos rfl, Nat.zero_min, List.take_zero]
      rfl
    rw [show fullAtHeader.seek f2 magicSize = (true, (f2.1, magicSize)) from rfl]
    simp only
    rw [hw0]
    simp only
    rw [if_pos (by decide)]
    have hk1 := hi.k1
    have hk2 := hi.k2
    cases w1
    simp only at hk1 hk2
    subst hk1
    subst hk2
    rfl
  refine ⟨w1, f2.1, magicSize, ?_, b2.magic, ?_, ?_⟩
  · unfold ioWrite
    rw [hv]
    simp only
    rw [hsec]
    simp only
    rw [a1]
    simp only
    rw [a2]
    simp only
    rw [hfin]
  · intro i x h1 h2 h3
    rcases b2.hole i x h1 h2 h3 with h4 | h4
    · cases h4
    · exact h4
  · obtain ⟨w'', b, hb, hx⟩ : ∃ w'' b, writerWrite e w [] version = .ok (w'', some b) ∧ b[30]? = some 32 := by
      unfold writerWrite
      rw [hv]
      simp only
      rw [hsec]
      simp only
      rw [hi.k1, hi.k2]
      simp only [signWith]
      refine ⟨_, _, rfl, ?_⟩
      rw [header_asOffset]
      unfold makeHeader
      simp only
      rw [asOffset_value]
      decide
    refine ⟨w'', b, hb, fun heq => ?_⟩
    rw [← heq] at hx
    rcases b2.hole 30 32 (by omega) (by omega) hx with h4 | h4
    · cases h4
    · exact absurd h4 (by decide)

theorem demo_short : ∀ op ∈ demoOps, ShortOp op := by
  intro op h
  simp only [demoOps, List.mem_cons, List.not_mem_nil, or_false] at h
  have s : ∀ l : CStr, l.length < 512 * 1024 → ShortStr (some l) := by rintro l hl x ⟨⟩; exact hl
  have n : ShortStr none := by rintro x ⟨⟩
  rcases h with rfl | rfl | rfl | rfl | rfl | rfl | rfl | rfl | rfl | rfl | rfl | rfl | rfl
  · exact s _ (by decide)
  · exact s _ (by decide)
  · exact n
  · exact s _ (by decide)
  · exact n
  · exact s _ (by decide)
  · exact s _ (by decide)
  · exact s _ (by decide)
  · exact s _ (by decide)
  · exact n
  · exact n
  · trivial
  · trivial

/-- The sample history: its writer can be written to a file with enough space, never returns for a stream that is opened for
    reading, and does not notice that the header is missing. -/
theorem demo_writing : ∃ w, Writes 32 none none demoOps w ∧
    (∃ old version w' f', ioWrite (fileDev fun _ len => len) pageSize demoEnv w (old, 0) version = .ok (w', 0, f') ∧
      ∃ db, dbOpen f'.1 = .ok db) ∧
    (∀ fuel, ioWrite readOnly fuel demoEnv w ([], 0) 1 = .error .diverge) ∧
    (∃ w' f', ioWrite fullAtHeader pageSize demoEnv w ([], 0) 1 = .ok (w', 0, f') ∧ f'.1.take magicSize = magic) := by
  obtain ⟨w0, f, hwritten⟩ := demo_written
  obtain ⟨db, hdb⟩ := open_written (by decide) hwritten
  obtain ⟨w, old, version, hw, he, hwr, hlen⟩ := hwritten
  refine ⟨w, hw, ?_, fun fuel => writing_readonly (by decide) demo_short hw rfl (by decide) _ fuel, ?_⟩
  · obtain ⟨f', h1, h2⟩ := (writing_exact_partial hw he (fileDev_isFile (can := fun _ _ => True) fun _ _ _ => rfl)
      (fun _ _ _ _ _ _ => trivial) (Nat.le_refl pageSize) (old, 0) version).1 w0 f hwr
    have h3 : f'.1 = f := h2
    exact ⟨old, version, w0, f', h1, db, by rw [h3]; exact hdb⟩
  · obtain ⟨w', data, pos, h1, h2, -⟩ := writing_headerless (by decide) demo_short hw (e := demoEnv) rfl (version := 1) (by decide) (Nat.le_refl _)
    exact ⟨w', (data, pos), h1, h2⟩

end Loc.Props
