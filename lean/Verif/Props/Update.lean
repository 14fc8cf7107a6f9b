import Verif.Spec.Update
import Verif.Props.Signature
/-
C47 - C49: `location update`.
-/
namespace Loc.Props
open Loc Loc.Spec

/-- One of the stored signatures of the file is a valid signature of the file for the configured public key. -/
def SignedFor {P : Type} (v : VEnv P) (f : Bytes) : Prop :=
  ∃ key second, v.key = some key ∧ storedSignature f second ≠ [] ∧ v.check key (verifyMessage f) (storedSignature f second) = .valid

theorem open_created {f : Bytes} {db : Db} (h : dbOpen f = .ok db) : pyCreatedAt db = statedTime f := by
  unfold dbOpen at h
  split at h
  · cases h
  unfold readHeader at h
  split at h
  · cases h
  split at h
  · cases h
  rename_i hd hrd
  split at h
  · cases h
  split at h
  · cases h
  split at h
  · cases h
  cases h
  show toSigned64 (field hd 0 8) = _
  rw [field_take hrd (by decide)]
  rfl

/-- What `_check_database` guarantees. -/
theorem check_true {P : Type} {v : VEnv P} {ts : Option Nat} {f : Bytes} (h : checkDatabase v ts f = .ok (.ok true)) :
    (∃ db, dbOpen f = .ok db) ∧ SignedFor v f ∧ ∀ t, ts = some t → t ≠ 0 → (t : Int) ≤ statedTime f := by
  unfold checkDatabase at h
  split at h
  · cases h
  · cases h
  rename_i db ho
  split at h
  · cases h
  rename_i hts
  split at h
  · cases h
  split at h
  · cases h
  rename_i r hr
  have h0 : r = 0 := by
    injection h with h
    injection h with h
    exact of_decide_eq_true h
  subst h0
  refine ⟨⟨db, ho⟩, verify_only_valid ho hr, ?_⟩
  rintro t rfl ht
  rw [← open_created ho]
  simp only [Option.any_some, Bool.and_eq_true, decide_eq_true_eq] at hts
  have := fun h => hts ⟨ht, h⟩
  omega

theorem tmpWrite_end {t : TmpFile} (h : t.pos = t.content.length) (b : Bytes) :
    (tmpWrite t b).content = t.content ++ b ∧ (tmpWrite t b).pos = (tmpWrite t b).content.length := by
  have : (tmpWrite t b).content = t.content ++ b := by
    unfold tmpWrite
    simp only [h, List.take_length, Nat.sub_self, List.replicate_zero, List.append_nil]
    rw [List.drop_eq_nil_of_le (by omega), List.append_nil]
  refine ⟨this, ?_⟩
  rw [this, List.length_append, ← h]
  rfl

theorem tmpTruncate_end {t : TmpFile} (h : t.pos = t.content.length) : tmpTruncate t = t := by
  unfold tmpTruncate
  rw [h, List.take_length, ← h]

/-- The file that is returned consists of everything that was delivered so far. -/
theorem downloadLoop_some {P : Type} {v : VEnv P} {ts : Option Nat} : ∀ (mirrors : List Reply) (t : TmpFile) (f : Bytes),
    t.pos = t.content.length → downloadLoop v ts t mirrors = .ok (.ok (some f)) →
    ∃ pre plain post, mirrors = pre ++ .data plain :: post ∧ f = t.content ++ pre.flatMap delivered ++ plain ∧
      checkDatabase v ts f = .ok (.ok true) := by
  intro mirrors
  induction mirrors with
  | nil => intro t f _ h; cases h
  | cons m rest ih =>
    intro t f ht h
    cases m with
    | corrupt part =>
      rw [downloadLoop] at h
      obtain ⟨h1, h2⟩ := tmpWrite_end ht part
      obtain ⟨pre, plain, post, e1, e2, e3⟩ := ih _ f h2 h
      refine ⟨.corrupt part :: pre, plain, post, by rw [e1]; rfl, ?_, e3⟩
      rw [e2, h1]
      simp [delivered]
    | httpError code =>
      rw [downloadLoop, tmpTruncate_end ht] at h
      obtain ⟨pre, plain, post, e1, e2, e3⟩ := ih _ f ht h
      exact ⟨.httpError code :: pre, plain, post, by rw [e1]; rfl, by rw [e2]; simp [delivered], e3⟩
    | lost part => rw [downloadLoop] at h; cases h
    | data plain =>
      rw [downloadLoop] at h
      obtain ⟨h1, h2⟩ := tmpWrite_end ht plain
      split at h
      · cases h
      · cases h
      · rw [tmpTruncate_end h2] at h
        obtain ⟨pre, plain', post, e1, e2, e3⟩ := ih _ f h2 h
        refine ⟨.data plain :: pre, plain', post, by rw [e1]; rfl, ?_, e3⟩
        rw [e2, h1]
        simp [delivered]
      · rename_i hc
        simp only [Except.ok.injEq, Py.ok.injEq, Option.some.injEq] at h
        subst h
        exact ⟨[], plain, rest, rfl, by rw [h1]; simp, hc⟩

theorem update_cases {P : Type} {v : VEnv P} {cron : Option Int} {now : Int} {latest : Option Nat} {mirrors : List Reply} {file file' : Option Bytes} {ok : Bool}
    (h : update v cron now latest mirrors file = .ok (file', ok)) :
    file' = file ∨ ∃ f, file' = some f ∧ ok = true ∧ download v latest mirrors = .ok (.ok (some f)) ∧
      ∀ b, file = some b → ∃ db, dbOpen b = .ok db ∧ ∀ t, latest = some t → t ≠ 0 → pyCreatedAt db < (t : Int) := by
  unfold update at h
  split at h
  · cases h
  · cases h; exact Or.inl rfl
  rename_i db hdb
  split at h
  · cases h; exact Or.inl rfl
  split at h
  · cases h; exact Or.inl rfl
  rename_i hnew
  split at h
  · cases h
  · cases h; exact Or.inl rfl
  · cases h; exact Or.inl rfl
  rename_i f hf
  cases h
  refine Or.inr ⟨f, rfl, rfl, hf, ?_⟩
  rintro b rfl
  rw [localDb] at hdb
  split at hdb
  · cases hdb
  · cases hdb
  rename_i db' ho
  cases hdb
  refine ⟨db', ho, ?_⟩
  rintro t rfl ht
  unfold upToDate at hnew
  simp only [Option.any_some, Bool.and_eq_true, decide_eq_true_eq] at hnew
  have := fun h => hnew ⟨ht, h⟩
  omega

/-- C47: an update leaves the local database as it is, or replaces it by a file that can be opened, that carries a valid
    signature of its whole content for the configured key, and that is not older than the version that was
    announced.  The new file consists of everything the mirrors delivered up to the last one that was asked. -/
theorem update_verified {P : Type} {v : VEnv P} {cron : Option Int} {now : Int} {latest : Option Nat} {mirrors : List Reply} {file file' : Option Bytes} {ok : Bool}
    (h : update v cron now latest mirrors file = .ok (file', ok)) :
    file' = file ∨ ∃ f, file' = some f ∧ ok = true ∧ (∃ db, dbOpen f = .ok db) ∧ SignedFor v f ∧
      (∀ t, latest = some t → t ≠ 0 → (t : Int) ≤ statedTime f) ∧
      ∃ pre plain post, mirrors = pre ++ .data plain :: post ∧ f = pre.flatMap delivered ++ plain := by
  rcases update_cases h with h | ⟨f, h1, h2, h3, -⟩
  · exact Or.inl h
  · obtain ⟨pre, plain, post, e1, e2, e3⟩ := downloadLoop_some mirrors tmpNew f rfl h3
    obtain ⟨c1, c2, c3⟩ := check_true e3
    exact Or.inr ⟨f, h1, h2, c1, c2, c3, pre, plain, post, e1, e2⟩

/-- C48, if a version was announced: the local database is only replaced by a newer one.  Missing: the announcement
    may be unavailable, see `update_violated_older`. -/
theorem update_newer_partial {P : Type} {v : VEnv P} {cron : Option Int} {now : Int} {t : Nat} (ht : t ≠ 0) {mirrors : List Reply} {old : Bytes} {file' : Option Bytes} {ok : Bool}
    (h : update v cron now (some t) mirrors (some old) = .ok (file', ok)) :
    file' = some old ∨ ∃ f, file' = some f ∧ statedTime old < statedTime f := by
  rcases update_cases h with h | ⟨f, h1, h2, h3, h4⟩
  · exact Or.inl h
  · obtain ⟨pre, plain, post, e1, e2, e3⟩ := downloadLoop_some mirrors tmpNew f rfl h3
    obtain ⟨-, -, c3⟩ := check_true e3
    obtain ⟨db, hd, hlt⟩ := h4 old rfl
    have h5 := c3 t rfl ht
    have h6 := hlt t rfl ht
    rw [open_created hd] at h6
    exact Or.inr ⟨f, h1, by omega⟩

/-- C49, as long as all mirrors that were asked before only reported HTTP errors: a mirror that delivers a good
    database is enough.  Missing: mirrors that deliver something else before, see `update_violated_mirror`. -/
theorem update_mirror_partial {P : Type} {v : VEnv P} {now : Int} {latest : Option Nat} {pre post : List Reply} {f : Bytes} {file : Option Bytes}
    (hpre : ∀ m ∈ pre, ∃ code, m = .httpError code) (hf : checkDatabase v latest f = .ok (.ok true))
    (hfile : ∀ old, file = some old → (∃ db, dbOpen old = .ok db) ∧ ∀ t, latest = some t → statedTime old < (t : Int)) :
    update v none now latest (pre ++ .data f :: post) file = .ok (some f, true) := by
  have key : ∀ pre : List Reply, (∀ m ∈ pre, ∃ code, m = .httpError code) → downloadLoop v latest tmpNew (pre ++ .data f :: post) = .ok (.ok (some f)) := by
    intro pre
    induction pre with
    | nil =>
      intro _
      have h1 := (tmpWrite_end (t := tmpNew) rfl f).1
      simp only [List.nil_append]
      rw [downloadLoop, h1]
      simp only [show tmpNew.content = [] from rfl, List.nil_append, hf]
    | cons m pre ih =>
      intro h
      obtain ⟨code, rfl⟩ := h m (by simp)
      rw [List.cons_append, downloadLoop, tmpTruncate_end rfl]
      exact ih fun m hm => h m (by simp [hm])
  have hd : download v latest (pre ++ .data f :: post) = .ok (.ok (some f)) := key pre hpre
  unfold update
  cases file with
  | none => simp only [localDb, upToDate, Option.any_none, Bool.false_eq_true, if_false, hd]
  | some old =>
    obtain ⟨⟨db, ho⟩, ht⟩ := hfile old rfl
    have hu : upToDate (some db) latest = false := by
      unfold upToDate
      cases latest with
      | none => rfl
      | some t =>
        have := ht t rfl
        rw [← open_created ho] at this
        have h2 : decide (pyCreatedAt db ≥ (t : Int)) = false := by
          rw [decide_eq_false_iff_not]; omega
        show (decide (t ≠ 0) && decide (pyCreatedAt db ≥ (t : Int))) = false
        rw [h2, Bool.and_false]
    simp only [localDb, ho, Option.any_some, cronSkip, Bool.false_eq_true, if_false, hu, hd]

/-! ### Mirrors that are outdated -/

theorem open_length {f : Bytes} {db : Db} (h : dbOpen f = .ok db) : 4200 ≤ f.length := by
  unfold dbOpen at h
  split at h
  · cases h
  unfold readHeader at h
  split at h
  · cases h
  split at h
  · cases h
  rename_i hd hrd
  exact (rd_ok hrd).2

theorem stated_append {f : Bytes} (h : 4200 ≤ f.length) (x : Bytes) : statedTime (f ++ x) = statedTime f := by
  unfold statedTime
  rw [List.drop_append_of_le_length (by omega), List.take_append_of_le_length (by rw [List.length_drop]; omega)]

/-- C49 does not hold: once a mirror has delivered a database that is older than announced, no other mirror can make
    up for it, because the file is not emptied. -/
theorem update_outdated_fatal {P : Type} {v : VEnv P} {cron : Option Int} {now : Int} {t : Nat} (ht : t ≠ 0) {mirrors : List Reply} {f : Bytes} {file file' : Option Bytes} {ok : Bool}
    (hf : 4200 ≤ f.length) (hold : statedTime f < (t : Int))
    (h : update v cron now (some t) (.data f :: mirrors) file = .ok (file', ok)) : file' = file := by
  rcases update_verified h with h | ⟨g, -, -, -, -, hg, pre, plain, post, e1, e2⟩
  · exact h
  · exfalso
    have h1 := hg t rfl ht
    have : ∃ x, g = f ++ x := by
      cases pre with
      | nil =>
        simp only [List.nil_append, List.cons.injEq, Reply.data.injEq] at e1
        exact ⟨[], by rw [e2, e1.1]; simp⟩
      | cons m pre =>
        simp only [List.cons_append, List.cons.injEq] at e1
        obtain ⟨rfl, -⟩ := e1
        exact ⟨pre.flatMap delivered ++ plain, by rw [e2]; simp [delivered]⟩
    obtain ⟨x, rfl⟩ := this
    rw [stated_append hf] at h1
    omega

/-! ### Samples -/

/-- A database that was created at the time `c` (below 256), with the first signature `sig` (one byte) and `body`
    behind the header. -/
def signedFile (c sig : Byte) (body : Bytes) : Bytes :=
  [76, 79, 67, 68, 66, 88, 88, 1] ++ [0, 0, 0, 0, 0, 0, 0, c] ++ List.replicate 52 0 ++ [0, 1, 0, 0] ++ (sig :: List.replicate 4095 0) ++
    List.replicate 32 0 ++ body

/-- A signature scheme in which the signature of a message is its length, reduced to one byte. -/
def lengthScheme : VEnv Unit where
  key := some ()
  ready := true
  check := fun _ m s => if s = [BitVec.ofNat 8 m.length] then .valid else .invalid

def replacedBy (r : Res (Option Bytes × Bool)) : Option Bytes :=
  match r with
  | .ok (f, _) => f
  | .error _ => none

set_option maxRecDepth 100000 in
/-- An update from version 1 to version 2; the first mirror does not have it. -/
example : replacedBy (update lengthScheme none 0 (some 2) [.httpError 304, .data (signedFile 2 104 [])] (some (signedFile 1 104 []))) =
    some (signedFile 2 104 []) := by decide +kernel

set_option maxRecDepth 100000 in
/-- The hypothesis of `update_mirror_partial` can be met. -/
example : (match checkDatabase lengthScheme (some 2) (signedFile 2 104 []) with | .ok (.ok true) => true | _ => false) = true := by decide +kernel

set_option maxRecDepth 100000 in
/-- A wrong signature: the database stays. -/
example : replacedBy (update lengthScheme none 0 (some 2) [.data (signedFile 2 105 [])] (some (signedFile 1 104 []))) =
    some (signedFile 1 104 []) := by decide +kernel

set_option maxRecDepth 100000 in
/-- C48 does not hold: without an announcement, version 2 is replaced by version 1. -/
theorem update_violated_older : ∃ old new : Bytes,
    replacedBy (update lengthScheme none 0 none [.data new] (some old)) = some new ∧ statedTime new < statedTime old :=
  ⟨signedFile 2 104 [], signedFile 1 104 [], by decide +kernel⟩

set_option maxRecDepth 100000 in
/-- C49 does not hold: the second mirror delivers a good new database, which alone is accepted; but not behind an
    outdated mirror, nor behind a mirror whose data is corrupt, nor behind a mirror that cannot be reached. -/
theorem update_violated_mirror : ∃ old new : Bytes,
    replacedBy (update lengthScheme none 0 (some 2) [.data new] (some old)) = some new ∧
    replacedBy (update lengthScheme none 0 (some 2) [.data old, .data new] (some old)) = some old ∧
    replacedBy (update lengthScheme none 0 (some 2) [.corrupt [1, 2, 3], .data new] (some old)) = some old ∧
    replacedBy (update lengthScheme none 0 (some 2) [.lost [], .data new] (some old)) = some old ∧ old ≠ new :=
  ⟨signedFile 1 104 [], signedFile 2 104 [], by decide +kernel⟩

set_option maxRecDepth 100000 in
/-- A local database that is damaged cannot be repaired by an update. -/
theorem update_violated_damaged :
    replacedBy (update lengthScheme none 0 (some 2) [.data (signedFile 2 104 [])] (some [0])) = some [0] ∧
    replacedBy (update lengthScheme none 0 (some 2) [.data (signedFile 2 104 [])] none) = some (signedFile 2 104 []) := by decide +kernel

/-! ### --cron -/

/-- C65: with `--cron`, nothing happens if the local database was created within the last `delta` seconds, whatever was
    announced and whatever the mirrors have. -/
theorem update_cron_recent {P : Type} (v : VEnv P) {delta now : Int} (latest : Option Nat) (mirrors : List Reply) {b : Bytes} {db : Db}
    (ho : dbOpen b = .ok db) (h : now - delta ≤ statedTime b) : update v (some delta) now latest mirrors (some b) = .ok (some b, false) := by
  rw [← open_created ho] at h
  have hc : (some db).any (cronSkip (some delta) now) = true := decide_eq_true h
  have hl : localDb (some b) = .ok (.ok (some db)) := by rw [localDb, ho]
  unfold update
  rw [hl]
  simp only [hc, if_true]

/-- C65: otherwise `--cron` makes no difference. -/
theorem update_cron_other {P : Type} (v : VEnv P) {delta now : Int} (latest : Option Nat) (mirrors : List Reply) {file : Option Bytes}
    (h : ∀ b, file = some b → statedTime b < now - delta) :
    update v (some delta) now latest mirrors file = update v none now latest mirrors file := by
  unfold update
  cases file with
  | none => rfl
  | some b =>
    cases ho : dbOpen b with
    | error e =>
      rw [localDb, ho]
      cases e <;> rfl
    | ok db =>
      have hb := h b rfl
      rw [← open_created ho] at hb
      have hc : (some db).any (cronSkip (some delta) now) = false := decide_eq_false (by omega)
      have hc' : (some db).any (cronSkip none now) = false := rfl
      have hl : localDb (some b) = .ok (.ok (some db)) := by rw [localDb, ho]
      rw [hl]
      simp only [hc, hc']

set_option maxRecDepth 100000 in
/-- A database of time 100, a new one of time 200: at 149 a period of 50 has not passed, at 151 it has. -/
example : replacedBy (update lengthScheme (some 50) 149 (some 200) [.data (signedFile 200 104 [])] (some (signedFile 100 104 []))) =
      some (signedFile 100 104 []) ∧
    replacedBy (update lengthScheme (some 50) 151 (some 200) [.data (signedFile 200 104 [])] (some (signedFile 100 104 []))) =
      some (signedFile 200 104 []) := by decide +kernel

end Loc.Props
