import Verif.Props.Signature
import Verif.Spec.ReadIo
/-
Lemmas about reading through streams.
-/
namespace Loc
open Spec Props

variable {σ : Type} {d : ReadDev σ} {file : Bytes} {pos faults : σ → Nat}

theorem Spec.Reader.take (R : Reader d file pos faults) (s : σ) (n : Nat) :
    (d.read s n).1 = (file.drop (pos s)).take (d.read s n).1.length :=
  List.prefix_iff_eq_take.mp (R.data s n)

theorem Spec.Reader.within (R : Reader d file pos faults) (s : σ) (n : Nat) (h : pos s ≤ file.length) :
    pos (d.read s n).2 ≤ file.length := by
  have h1 := (R.data s n).length_le
  rw [List.length_drop] at h1
  rw [R.move]
  omega

theorem readRest_ok (R : Reader d file pos faults) : ∀ (fuel : Nat) (s : σ) (r : Bytes × σ), pos s ≤ file.length →
    (d.eof s = true → file.length ≤ pos s) → readRest d fuel s = .ok r →
    r.1 = file.drop (pos s) ∧ faults r.2 ≤ faults s := by
  intro fuel
  induction fuel with
  | zero => intro s r _ _ h; cases h
  | succ fuel ih =>
    intro s r hp he h
    unfold readRest at h
    split at h
    · rename_i hs
      cases h
      exact ⟨(List.drop_eq_nil_of_le (he hs)).symm, Nat.le_refl _⟩
    rename_i hs
    split at h
    · cases h
    rename_i r' hr
    cases h
    have hw := R.within s (64 * 1024) hp
    have := ih _ r' hw ?_ hr
    · obtain ⟨h1, h2⟩ := this
      refine ⟨?_, Nat.le_trans h2 (R.less _ _)⟩
      show (d.read s (64 * 1024)).1 ++ r'.1 = _
      rw [h1, R.move, ← List.drop_drop]
      generalize hb : (d.read s (64 * 1024)).1 = b
      have hb' : b <+: file.drop (pos s) := hb ▸ R.data s _
      obtain ⟨t, ht⟩ := hb'
      rw [← ht, List.drop_left]
    · intro hee
      rcases Nat.lt_or_eq_of_le (R.most s (64 * 1024)) with hlt | heq
      · rcases R.short s _ hlt with ⟨_, h2⟩ | ⟨h1, _⟩
        · exact h2
        · rw [h1] at hee; exact absurd hee hs
      · rw [R.full s _ heq] at hee; exact absurd hee hs

theorem readRest_ends (R : Reader d file pos faults) : ∀ (fuel : Nat) (s : σ), pos s ≤ file.length →
    (file.length - pos s) / 65536 + faults s + (if d.eof s then 0 else 1) < fuel →
    ∃ r, readRest d fuel s = .ok r := by
  intro fuel
  induction fuel with
  | zero => intro s _ h; exact absurd h (Nat.not_lt_zero _)
  | succ fuel ih =>
    intro s hp h
    unfold readRest
    by_cases hs : d.eof s = true
    · rw [if_pos hs]; exact ⟨_, rfl⟩
    rw [if_neg hs]
    rw [if_neg hs] at h
    have hw := R.within s (64 * 1024) hp
    have hm := R.move s (64 * 1024)
    have hl := R.less s (64 * 1024)
    have : ∃ r, readRest d fuel (d.read s (64 * 1024)).2 = .ok r := by
      refine ih _ hw ?_
      rcases Nat.lt_or_eq_of_le (R.most s (64 * 1024)) with hlt | heq
      · rcases R.short s _ hlt with ⟨h1, _⟩ | ⟨h1, h2⟩
        · rw [if_pos h1]; omega
        · rw [h1, if_neg hs]; omega
      · rw [R.full s _ heq, if_neg hs]; omega
    obtain ⟨r, hr⟩ := this
    rw [hr]
    exact ⟨_, rfl⟩

theorem checkRead_eq {P : Type} (check : P → Bytes → Bytes → VerifyOut) (key : P) (f : Bytes) (off len : Nat) :
    checkSignature check key f off len = checkRead check key f (verifyMessage f) off len := rfl

theorem dbVerify_judge {P : Type} {v : VEnv P} {db : Db} {key : P} (hk : v.key = some key) (hr : v.ready = true)
    (hl : 4200 ≤ db.file.length) : dbVerify v db = judge v.check key db (verifyMessage db.file) := by
  unfold dbVerify judge
  rw [hk]
  simp only [hr, Bool.not_true, Bool.false_eq_true, if_false]
  rw [if_neg (show ¬ db.file.length < magicSize from fun h => by unfold magicSize at h; omega),
    if_neg (show ¬ db.file.length < magicSize + headerSize from fun h => by
      have : magicSize + headerSize = 4200 := rfl
      omega)]
  rfl

theorem verifyMessage_read (f : Bytes) :
    f.take magicSize ++ clearHeader ((f.drop magicSize).take headerSize) ++ f.drop (magicSize + headerSize) = verifyMessage f := by
  unfold clearHeader verifyMessage
  rw [List.take_take, List.drop_take, List.take_take, List.drop_drop]
  rfl

theorem open_room {f : Bytes} {db : Db} (h : dbOpen f = .ok db) :
    4200 ≤ f.length ∧ db.sig1Len ≤ 2048 ∧ db.sig2Len ≤ 2048 := by
  unfold dbOpen at h
  split at h
  · cases h
  unfold readHeader at h
  split at h
  · cases h
  split at h
  · cases h
  rename_i hd hrd
  split at h
  · cases h
  rename_i g1
  split at h
  · cases h
  rename_i g2
  split at h
  · cases h
  cases h
  exact ⟨(rd_ok hrd).2, Nat.le_of_not_lt g1, Nat.le_of_not_lt g2⟩

theorem checkRead_total {P : Type} (check : P → Bytes → Bytes → VerifyOut) (key : P) {f : Bytes} (msg : Bytes) {off len : Nat}
    (h : off + len ≤ f.length) : ∃ r, checkRead check key f msg off len = .ok r := by
  unfold checkRead
  split
  · exact ⟨_, rfl⟩
  unfold rd
  rw [if_pos h]
  dsimp only
  split
  · exact ⟨_, rfl⟩
  · exact ⟨_, rfl⟩
  · exact ⟨_, rfl⟩

theorem judge_total {P : Type} (check : P → Bytes → Bytes → VerifyOut) (key : P) {f : Bytes} {db : Db} (ho : dbOpen f = .ok db) (msg : Bytes) :
    ∃ n, judge check key db msg = .ok n := by
  obtain ⟨hf, o1, o2, -, -⟩ := open_sigs ho
  obtain ⟨hl, l1, l2⟩ := open_room ho
  unfold judge
  obtain ⟨r1, h1⟩ := checkRead_total check key (f := db.file) msg (off := db.sig1Off) (len := db.sig1Len) (by rw [hf, o1]; omega)
  obtain ⟨r2, h2⟩ := checkRead_total check key (f := db.file) msg (off := db.sig2Off) (len := db.sig2Len) (by rw [hf, o2]; omega)
  rw [h1, h2]
  cases r1 with
  | none => exact ⟨_, rfl⟩
  | some a =>
    cases r2 with
    | none => exact ⟨_, rfl⟩
    | some b => exact ⟨_, rfl⟩

/-- A read of a whole block at a position is the block; otherwise the file ends before or there was an error. -/
theorem Spec.Reader.block (R : Reader d file pos faults) (s : σ) (n : Nat) (hr : pos s + n ≤ file.length) :
    ((d.read s n).1 = (file.drop (pos s)).take n ∧ pos (d.read s n).2 = pos s + n ∧ d.eof (d.read s n).2 = d.eof s ∧
      faults (d.read s n).2 ≤ faults s) ∨
    ((d.read s n).1.length < n ∧ faults (d.read s n).2 < faults s) := by
  rcases Nat.lt_or_eq_of_le (R.most s n) with hlt | heq
  · rcases R.short s n hlt with ⟨_, h2⟩ | ⟨_, h2⟩
    · rw [R.move] at h2
      omega
    · exact Or.inr ⟨hlt, h2⟩
  · refine Or.inl ⟨?_, by rw [R.move, heq], R.full s n heq, R.less s n⟩
    have := R.take s n
    rw [heq] at this
    exact this

theorem Spec.Reader.ends (R : Reader d file pos faults) (s : σ) (n : Nat) (hp : pos s ≤ file.length) (hr : file.length < pos s + n) :
    (d.read s n).1.length < n := by
  have := R.within s n hp
  rw [R.move] at this
  omega

end Loc
