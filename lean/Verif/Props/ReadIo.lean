import Verif.Lemmas.ReadIo
/-
Opening and verifying databases through streams which may fail (C83).
-/
namespace Loc.Props
open Loc Loc.Spec

variable {σ : Type} {d : ReadDev σ} {file : Bytes} {pos faults : σ → Nat}

/-- A disk without errors is a reader. -/
theorem disk_reader (file : Bytes) : Reader (badDisk file file.length) file (·.1) (fun _ => 0) where
  start _ := rfl
  clear _ := rfl
  same _ := rfl
  data _ _ := List.take_prefix _ _
  most s n := by
    show ((file.drop s.1).take (min n (file.length - s.1))).length ≤ n
    rw [List.length_take]
    omega
  move _ _ := rfl
  less _ _ := Nat.le_refl _
  full s n h := by
    have h' : ((file.drop s.1).take (min n (file.length - s.1))).length = n := h
    show (s.2 || _) = s.2
    rw [h', decide_eq_false (Nat.lt_irrefl n), Bool.false_and, Bool.or_false]
  short s n h := by
    have h' : ((file.drop s.1).take (min n (file.length - s.1))).length < n := h
    refine Or.inl ⟨?_, ?_⟩
    · show (s.2 || _) = true
      rw [decide_eq_true h', decide_eq_true (show file.length ≤ s.1 + ((file.drop s.1).take (min n (file.length - s.1))).length by
        rw [List.length_take, List.length_drop] at h' ⊢; omega)]
      exact Bool.or_true _
    · show file.length ≤ s.1 + ((file.drop s.1).take (min n (file.length - s.1))).length
      rw [List.length_take, List.length_drop] at h' ⊢
      omega

/-- The stream whose next reads are interrupted is a reader: the errors are counted. -/
theorem flaky_reader (file : Bytes) : Reader (flaky file) file (·.1) (·.2.2) where
  start _ := rfl
  clear _ := rfl
  same _ := rfl
  data s n := by
    unfold flaky
    dsimp only
    split <;> exact List.take_prefix _ _
  most s n := by
    unfold flaky
    dsimp only
    split <;> (dsimp only; rw [List.length_take]; omega)
  move s n := by
    unfold flaky
    dsimp only
    split <;> rfl
  less s n := by
    unfold flaky
    dsimp only
    split
    · exact Nat.le_refl _
    · exact Nat.sub_le _ _
  full s n := by
    unfold flaky
    dsimp only
    split
    · intro h
      dsimp only at h ⊢
      rw [h, decide_eq_false (Nat.lt_irrefl n), Bool.or_false]
    · intro h
      rfl
  short s n := by
    unfold flaky
    dsimp only
    split
    · intro h
      dsimp only at h ⊢
      refine Or.inl ⟨?_, ?_⟩
      · rw [decide_eq_true h]; exact Bool.or_true _
      · rw [List.length_take, List.length_drop] at h ⊢
        omega
    · rename_i hk
      intro _
      refine Or.inr ⟨rfl, ?_⟩
      dsimp only
      omega

/-- Whatever verification through a reader answers is the answer for the contents of the file, or it is 1 and
    there was a read error. -/
theorem verify_reads {P : Type} {v : VEnv P} {db : Db} (ho : dbOpen file = .ok db) (R : Reader d file pos faults) {fuel : Nat} {s : σ}
    {r : Int} {s' : σ} (h : verifyIo d fuel v db s = .ok (r, s')) :
    dbVerify v db = .ok r ∨ (r = 1 ∧ faults s' < faults s) := by
  obtain ⟨hl, -, -⟩ := open_room ho
  have hf := (open_sigs ho).1
  unfold verifyIo at h
  split at h
  · rename_i hk
    cases h
    unfold dbVerify
    rw [hk]
    exact Or.inl rfl
  rename_i key hk
  split at h
  · rename_i hr
    cases h
    unfold dbVerify
    rw [hk]
    dsimp only
    rw [if_pos hr]
    exact Or.inl rfl
  rename_i hr
  have hr' : v.ready = true := by
    cases hv : v.ready with
    | true => rfl
    | false => rw [hv] at hr; exact absurd rfl hr
  have hm : magicSize = 8 := rfl
  have hh : headerSize = 4192 := rfl
  have b1 := R.block (d.rewind s) magicSize (by rw [R.start]; omega)
  rw [R.start, R.clear, R.same] at b1
  have b2 := R.block (d.read (d.rewind s) magicSize).2 headerSize
  have w1 := R.within (d.rewind s) magicSize (by rw [R.start]; omega)
  have r3 := fun r => readRest_ok R fuel (d.read (d.read (d.rewind s) magicSize).2 headerSize).2 r
  split at h
  · rename_i hs
    cases h
    rcases b1 with ⟨e1, -⟩ | ⟨-, e1⟩
    · rw [e1, List.length_take] at hs
      rw [List.length_drop] at hs
      omega
    · exact Or.inr ⟨rfl, e1⟩
  rename_i hs1
  rcases b1 with ⟨e1, p1, f1, q1⟩ | ⟨e1, -⟩
  swap
  · exact absurd e1 hs1
  have b2 := b2 (by rw [p1]; omega)
  split at h
  · rename_i hs
    cases h
    rcases b2 with ⟨e2, -⟩ | ⟨-, e2⟩
    · rw [e2, List.length_take, List.length_drop, p1] at hs
      omega
    · exact Or.inr ⟨rfl, Nat.lt_of_lt_of_le e2 q1⟩
  rename_i hs2
  rcases b2 with ⟨e2, p2, f2, q2⟩ | ⟨e2, -⟩
  swap
  · exact absurd e2 hs2
  split at h
  · cases h
  rename_i x hx
  obtain ⟨e3, q3⟩ := r3 x (by rw [p2, p1]; omega) (by rw [f2, f1]; exact fun h => Bool.noConfusion h) hx
  split at h
  · cases h
  rename_i n hn
  cases h
  refine Or.inl ?_
  rw [dbVerify_judge hk hr' (by rw [hf]; exact hl), hf, ← verifyMessage_read file, ← hn, e1, e2, e3, p2, p1]
  simp only [List.drop_zero, Nat.zero_add]

/-- Verification never accepts a file because of read errors: if the answer is 0 then one of the stored
    signatures is a valid signature of the whole contents, whatever the stream did meanwhile. -/
theorem verify_reads_only_valid {P : Type} {v : VEnv P} {db : Db} (ho : dbOpen file = .ok db) (R : Reader d file pos faults)
    {fuel : Nat} {s s' : σ} (h : verifyIo d fuel v db s = .ok (0, s')) :
    ∃ key second, v.key = some key ∧ storedSignature file second ≠ [] ∧
      v.check key (verifyMessage file) (storedSignature file second) = .valid := by
  rcases verify_reads ho R h with h1 | ⟨h1, -⟩
  · exact verify_only_valid ho h1
  · exact absurd h1 (by decide)

/-- Verification ends if there are only finitely many read errors: one round for each 64 KiB, one for each error
    and two more suffice.  The answer is the one for the contents of the file, or 1 after a read error.

    Missing: with read errors which do not go away it does not end, see `verify_endless_violated`. -/
theorem verify_reads_ends_partial {P : Type} (v : VEnv P) {db : Db} (ho : dbOpen file = .ok db) (R : Reader d file pos faults)
    (s : σ) {fuel : Nat} (hfuel : file.length / 65536 + faults s + 1 < fuel) :
    ∃ r s', verifyIo d fuel v db s = .ok (r, s') ∧ (dbVerify v db = .ok r ∨ (r = 1 ∧ faults s' < faults s)) := by
  have : ∃ x, verifyIo d fuel v db s = .ok x := by
    unfold verifyIo
    split
    · exact ⟨_, rfl⟩
    rename_i key hk
    split
    · exact ⟨_, rfl⟩
    split
    · exact ⟨_, rfl⟩
    split
    · exact ⟨_, rfl⟩
    have w1 := R.within (d.rewind s) magicSize (by rw [R.start]; omega)
    have w2 := R.within _ headerSize w1
    have q1 := R.less (d.rewind s) magicSize
    have q2 := R.less (d.read (d.rewind s) magicSize).2 headerSize
    rw [R.same] at q1
    obtain ⟨x, hx⟩ := readRest_ends R fuel _ w2 (by split <;> omega)
    rw [hx]
    dsimp only
    generalize (d.read (d.rewind s) magicSize).1 ++ clearHeader (d.read (d.read (d.rewind s) magicSize).2 headerSize).1 ++ x.1 = msg
    obtain ⟨n, hn⟩ := judge_total v.check key ho msg
    rw [hn]
    exact ⟨_, rfl⟩
  obtain ⟨⟨r, s'⟩, hx⟩ := this
  exact ⟨r, s', hx, verify_reads ho R hx⟩

/-- Without read errors the answer is the one for the contents of the file. -/
theorem verify_disk {P : Type} (v : VEnv P) {db : Db} (ho : dbOpen file = .ok db) (s : Nat × Bool) :
    ∃ r s', verifyIo (badDisk file file.length) (file.length / 65536 + 2) v db s = .ok (r, s') ∧ dbVerify v db = .ok r := by
  obtain ⟨r, s', h1, h2 | ⟨-, h2⟩⟩ := verify_reads_ends_partial v ho (disk_reader file) s (Nat.lt_succ_self _)
  · exact ⟨r, s', h1, h2⟩
  · exact absurd h2 (Nat.lt_irrefl 0)

/-- A signed file is accepted through a disk; and through a stream with three interrupted reads the answer is
    either the same or 1. -/
example : ∃ file db s', dbOpen file = .ok db ∧
    verifyIo (badDisk file file.length) (file.length / 65536 + 2) ⟨some 7, true, toyCheck'⟩ db (0, false) = .ok (0, s') ∧
    ∃ r s'', verifyIo (flaky file) (file.length / 65536 + 5) ⟨some 7, true, toyCheck'⟩ db (0, false, 3) = .ok (r, s'') ∧ (r = 0 ∨ r = 1) := by
  obtain ⟨w, f, db, h1, h2, h3⟩ := signedAsk_written (e := toyEnv toySign) (key1 := some 5) (key2 := some 7)
    (q := fun _ db => (dbVerify ⟨some 7, true, toyCheck'⟩ db).toOption) (x := 0) rfl (by decide +kernel)
  have h4 : dbVerify ⟨some 7, true, toyCheck'⟩ db = .ok 0 := by
    revert h3
    generalize dbVerify ⟨some 7, true, toyCheck'⟩ db = x
    intro h3
    cases x with
    | error e => cases h3
    | ok a => cases h3; rfl
  obtain ⟨r, s', g1, g2⟩ := verify_disk ⟨some 7, true, toyCheck'⟩ h2 (0, false)
  obtain ⟨r', s'', k1, k2⟩ := verify_reads_ends_partial ⟨some 7, true, toyCheck'⟩ h2 (flaky_reader f) (0, false, 3) (Nat.lt_succ_self _)
  rw [h4] at g2 k2
  cases g2
  refine ⟨f, db, s', h2, g1, r', s'', k1, ?_⟩
  rcases k2 with k2 | ⟨k2, -⟩
  · cases k2; exact Or.inl rfl
  · exact Or.inr k2

theorem readRest_badDisk {bad : Nat} (hb : bad < file.length) : ∀ (fuel p : Nat), p ≤ bad →
    readRest (badDisk file bad) fuel (p, false) = .error .diverge := by
  intro fuel
  induction fuel with
  | zero => intro p _; rfl
  | succ fuel ih =>
    intro p hp
    unfold readRest
    rw [if_neg (show ¬ (badDisk file bad).eof (p, false) = true from fun h => Bool.noConfusion h)]
    have hl : p + ((file.drop p).take (min (64 * 1024) (bad - p))).length ≤ bad := by
      rw [List.length_take, List.length_drop]
      omega
    have he : ((badDisk file bad).read (p, false) (64 * 1024)).2 =
        (p + ((file.drop p).take (min (64 * 1024) (bad - p))).length, false) := by
      show (p + ((file.drop p).take (min (64 * 1024) (bad - p))).length, (false || (_ && decide (file.length ≤ p + _)))) = _
      rw [decide_eq_false (show ¬ file.length ≤ p + ((file.drop p).take (min (64 * 1024) (bad - p))).length by omega),
        Bool.and_false, Bool.or_false]
    rw [he, ih _ hl]

/-- The code violates termination: if the file cannot be read from some position after the header on, then
    verification never ends, for any key and however long it runs. -/
theorem verify_endless_violated {P : Type} {v : VEnv P} {key : P} (hk : v.key = some key) (hr : v.ready = true) (db : Db)
    {bad : Nat} (h1 : 4200 ≤ bad) (h2 : bad < file.length) (s : Nat × Bool) (fuel : Nat) :
    verifyIo (badDisk file bad) fuel v db s = .error .diverge := by
  unfold verifyIo
  rw [hk]
  dsimp only
  rw [hr]
  have hm : magicSize = 8 := rfl
  have hh : headerSize = 4192 := rfl
  have e1 : ((badDisk file bad).read ((badDisk file bad).rewind s) magicSize).1.length = 8 := by
    show ((file.drop 0).take (min 8 (bad - 0))).length = 8
    rw [List.length_take, List.length_drop]
    omega
  have t1 : ((badDisk file bad).read ((badDisk file bad).rewind s) magicSize).2 = (8, false) := by
    show (0 + ((file.drop 0).take (min 8 (bad - 0))).length, (false || (decide (((file.drop 0).take (min 8 (bad - 0))).length < 8) && _))) = _
    have : ((file.drop 0).take (min 8 (bad - 0))).length = 8 := e1
    rw [this]
    rfl
  rw [t1]
  have e2 : ((badDisk file bad).read (8, false) headerSize).1.length = 4192 := by
    show ((file.drop 8).take (min 4192 (bad - 8))).length = 4192
    rw [List.length_take, List.length_drop]
    omega
  have t2 : ((badDisk file bad).read (8, false) headerSize).2 = (4200, false) := by
    show (8 + ((file.drop 8).take (min 4192 (bad - 8))).length, (false || (decide (((file.drop 8).take (min 4192 (bad - 8))).length < 4192) && _))) = _
    have : ((file.drop 8).take (min 4192 (bad - 8))).length = 4192 := e2
    rw [this]
    rfl
  rw [t2, readRest_badDisk h2 fuel 4200 h1, e1, e2]
  rfl

example : verifyIo (badDisk (List.replicate 5000 0) 4300) 1000000 (⟨some 7, true, toyCheck'⟩ : VEnv Byte)
    ⟨[], 0, 0, 0, 0, 0, 0, 0, 0, 0, 0, 0, 0, 0, 0, 0, 0, 0, 0⟩ (0, false) = .error .diverge :=
  verify_endless_violated rfl rfl _ (by decide) (by rw [List.length_replicate]; decide) _ _

theorem magicIo_take (f : Bytes) (h : magicSize ≤ f.length) : magicIo (f.take magicSize) = checkMagic f := by
  have hm : magicSize = 8 := rfl
  unfold magicIo checkMagic
  rw [List.length_take, Nat.min_eq_left h, List.take_take, List.drop_take, List.take_take]
  rw [if_neg (Nat.lt_irrefl _), if_neg (Nat.not_lt.mpr h)]
  rfl

/-- Opening through a reader answers as for the contents of the file, or it fails with `ENOMSG` and there was a
    read error.

    Missing: the descriptor `dup` returns must not be 0, see `open_descriptor_violated`. -/
theorem open_reads_partial (R : Reader d file pos faults) {fd : Int} (hfd : 0 < fd) (s : σ) :
    (openIo d fd file s).1 = dbOpen file ∨
      ((openIo d fd file s).1 = .error (.err ENOMSG) ∧ faults (openIo d fd file s).2 < faults s) := by
  unfold openIo
  rw [if_neg (show ¬ fd = 0 by omega), if_neg (show ¬ fd < 0 by omega)]
  have hm : magicSize = 8 := rfl
  by_cases hl : magicSize ≤ file.length
  · have b1 := R.block (d.rewind s) magicSize (by rw [R.start]; omega)
    rw [R.start, R.same, List.drop_zero] at b1
    rcases b1 with ⟨e1, -⟩ | ⟨e1, e2⟩
    · rw [e1, magicIo_take file hl]
      unfold dbOpen
      refine Or.inl ?_
      by_cases hc : checkMagic file ≠ 0
      · rw [if_pos hc, if_pos hc]
      · rw [if_neg hc, if_neg hc]
    · have : magicIo (d.read (d.rewind s) magicSize).1 = ENOMSG := by
        unfold magicIo
        rw [if_pos e1]
      rw [this, if_pos (show ENOMSG ≠ 0 by decide)]
      exact Or.inr ⟨rfl, e2⟩
  · have e1 := R.ends (d.rewind s) magicSize (by rw [R.start]; omega) (by rw [R.start]; omega)
    have : magicIo (d.read (d.rewind s) magicSize).1 = ENOMSG := by
      unfold magicIo
      rw [if_pos e1]
    rw [this, if_pos (show ENOMSG ≠ 0 by decide)]
    refine Or.inl ?_
    unfold dbOpen checkMagic
    rw [if_pos (Nat.lt_of_not_le hl), if_pos (show ENOMSG ≠ 0 by decide)]

/-- Opening a file which cannot be opened through a stream without errors fails in the same way; a stream which
    fails at once makes opening fail. -/
example : (openIo (badDisk [] 0) 3 [] (0, false)).1 = .error (.err ENOMSG) ∧
    (openIo (badDisk (List.replicate 5000 0) 4) 3 (List.replicate 5000 0) (0, false)).1 = .error (.err ENOMSG) :=
  ⟨rfl, rfl⟩

/-- The code violates it if standard input is closed: `dup` then returns 0, which is taken for an error, and no
    file can be opened. -/
theorem open_descriptor_violated (d : ReadDev σ) (s : σ) (db : Db) : (openIo d 0 file s).1 ≠ .ok db := by
  intro h
  cases h

end Loc.Props
