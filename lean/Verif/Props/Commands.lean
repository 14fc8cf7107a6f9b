import Verif.Model.Commands
import Verif.Props.Signature
import Verif.Props.Safe
import Verif.Props.Update
import Verif.Props.Dates
/-
C90: `location verify` and `location version`.
-/
namespace Loc.Props
open Loc Loc.Spec

theorem checkSignature_cases {P : Type} {v : VEnv P} (hv : ∀ p m s, v.check p m s ≠ .error) {key : P} {f : Bytes} {off len : Nat} (hl : off + len ≤ f.length) :
    ∃ b, checkSignature v.check key f off len = .ok (some b) ∧
      (b = true ↔ (f.drop off).take len ≠ [] ∧ v.check key (verifyMessage f) ((f.drop off).take len) = .valid) := by
  unfold checkSignature
  by_cases h0 : len = 0
  · rw [if_pos h0]
    refine ⟨false, rfl, (fun h => by cases h), fun ⟨h1, _⟩ => ?_⟩
    rw [h0, List.take_zero] at h1
    exact absurd rfl h1
  · rw [if_neg h0]
    unfold rd
    rw [if_pos hl]
    simp only
    have hne : (f.drop off).take len ≠ [] := by
      intro h
      have := congrArg List.length h
      rw [List.length_take, List.length_drop, List.length_nil] at this
      omega
    cases hc : v.check key (verifyMessage f) ((f.drop off).take len) with
    | valid => exact ⟨true, rfl, fun _ => ⟨hne, rfl⟩, fun _ => rfl⟩
    | invalid => exact ⟨false, rfl, (fun h => by cases h), fun ⟨_, h⟩ => by cases h⟩
    | error => exact absurd hc (hv _ _ _)

/-- C90: `location verify` exits with 0 exactly if the file is there and is a database, the public key can be read, and one of
    the two signatures in the file is a signature of its contents for that key; otherwise with 1.  The file has a
    complete header and its signatures have at most 2048 bytes, as in every written file; OpenSSL reports no errors (C27). -/
theorem verify_exit {P : Type} {v : VEnv P} (hv : ∀ p m s, v.check p m s ≠ .error) (hr : v.ready = true) (keyThere : Bool) {f : Bytes} (hf : 4200 ≤ f.length) (hf' : f.length < 2 ^ 64)
    (h1 : field f 68 2 ≤ 2048) (h2 : field f 70 2 ≤ 2048) :
    ((verifyCommand v keyThere (some f) = .ok 0 ↔ keyThere = true ∧ (∃ db, dbOpen f = .ok db) ∧
      ∃ key second, v.key = some key ∧ storedSignature f second ≠ [] ∧ v.check key (verifyMessage f) (storedSignature f second) = .valid) ∧
     (verifyCommand v keyThere (some f) = .ok 0 ∨ verifyCommand v keyThere (some f) = .ok 1)) ∧
    verifyCommand v keyThere none = .ok 1 := by
  refine ⟨?_, rfl⟩
  have hopen := open_outside_iff hf'
  unfold verifyCommand withDatabase
  simp only
  cases ho : dbOpen f with
  | error e =>
    have hno : ¬ ∃ db, (Except.error e : Res Db) = .ok db := fun ⟨db, h⟩ => by cases h
    refine ⟨⟨fun h => ?_, fun ⟨_, h, _⟩ => absurd h hno⟩, ?_⟩
    · cases e <;> cases h
    · rw [ho] at hopen
      cases e with
      | err n => exact Or.inr rfl
      | oob => exact absurd rfl hopen.2.1
      | eof => have := (hopen.1.mp rfl).2; omega
      | diverge => exact absurd rfl hopen.2.2
  | ok db =>
    cases keyThere with
    | false => exact ⟨⟨(fun h => by cases h), fun ⟨h, _⟩ => by cases h⟩, Or.inr rfl⟩
    | true =>
      obtain ⟨e0, o1, o2, l1, l2⟩ := open_sigs ho
      have s1 : storedSignature f false = (f.drop 72).take (field f 68 2) := rfl
      have s2 : storedSignature f true = (f.drop 2120).take (field f 70 2) := rfl
      simp only [↓reduceIte]
      unfold dbVerify
      rw [e0, o1, o2, l1, l2, hr]
      cases hk : v.key with
      | none => exact ⟨⟨(fun h => by cases h), fun ⟨_, _, key, _, h, _⟩ => by cases h⟩, Or.inr rfl⟩
      | some key =>
        obtain ⟨b1, c1, d1⟩ := checkSignature_cases hv (key := key) (f := f) (off := 72) (len := field f 68 2) (by omega)
        obtain ⟨b2, c2, d2⟩ := checkSignature_cases hv (key := key) (f := f) (off := 2120) (len := field f 70 2) (by omega)
        have hm : magicSize = 8 := rfl
        have hh : magicSize + headerSize ≤ 4200 := by decide
        simp only [Bool.not_true, Bool.false_eq_true, ↓reduceIte]
        rw [if_neg (by omega), if_neg (by omega), c1]
        simp only
        rw [c2]
        simp only
        have hb : (b1 || b2) = true ↔ ∃ key' second, some key = some key' ∧ storedSignature f second ≠ [] ∧
            v.check key' (verifyMessage f) (storedSignature f second) = .valid := by
          rw [Bool.or_eq_true, d1, d2]
          constructor
          · rintro (h | h)
            · exact ⟨key, false, rfl, h⟩
            · exact ⟨key, true, rfl, h⟩
          · rintro ⟨key', second, he, h⟩
            cases he
            cases second
            · exact Or.inl h
            · exact Or.inr h
        by_cases hc : (b1 || b2) = true
        · rw [if_pos hc, if_pos rfl]
          exact ⟨⟨fun _ => ⟨trivial, ⟨db, rfl⟩, hb.mp hc⟩, fun _ => rfl⟩, Or.inl rfl⟩
        · rw [if_neg hc, if_neg (by decide)]
          exact ⟨⟨(fun h => by cases h), fun ⟨_, _, h⟩ => absurd (hb.mpr h) hc⟩, Or.inr rfl⟩

set_option maxRecDepth 100000 in
/-- A file whose signature is good, one whose signature is not, and a missing public key. -/
example : (verifyCommand lengthScheme true (some (signedFile 2 104 []))).toOption = some 0 ∧
    (verifyCommand lengthScheme true (some (signedFile 2 105 []))).toOption = some 1 ∧
    (verifyCommand lengthScheme false (some (signedFile 2 104 []))).toOption = some 1 ∧
    4200 ≤ (signedFile 2 104 []).length ∧ field (signedFile 2 104 []) 68 2 ≤ 2048 ∧ field (signedFile 2 104 []) 70 2 ≤ 2048 := by
  decide +kernel

/-- C90: `location version` prints the date at which a written database was made, and exits with 0. -/
theorem version_printed {K : Type} {ctz0 : Nat} (h0 : 8 ≤ ctz0) {key1 key2 : Option K} {ops : List (WOp K)} {e : WEnv K}
    {w : Writer K} {f : Bytes} (h : Written ctz0 key1 key2 ops e w f) (early : Int → CStr) (days hour min sec : Nat) (hs : sec < 60) (hm : min < 60)
    (hh : hour < 24) (ht : e.now = ((days * 24 + hour) * 60 + min) * 60 + sec) (hn : e.now < 253402300800) :
    versionCommand early (some f) = .ok (httpDate days hour min sec ++ [10], 0) := by
  obtain ⟨db, ho, -, -, -, hc⟩ := metadata_roundtrip h0 h
  have hc := hc (by omega)
  have hp : pyCreatedAt db = .ofNat e.now := by
    unfold pyCreatedAt toSigned64
    rw [hc, if_pos (by omega)]
    rfl
  unfold versionCommand withDatabase
  simp only
  rw [ho]
  simp only
  rw [hp, if_neg (by
    unfold gmtimeRaises
    simp only [Bool.or_eq_true, decide_eq_true_eq, Int.ofNat_eq_natCast]
    omega)]
  simp only
  rw [date_text hn days hour min sec hs hm hh ht]

/-- The demonstration database, of 14 November 2023, 22:13:20. -/
example (early : Int → CStr) : ∃ w f, Written 32 none none demoOps demoEnv w f ∧
    versionCommand early (some f) = .ok (httpDate 19675 22 13 20 ++ [10], 0) := by
  obtain ⟨w, f, h⟩ := demo_written
  exact ⟨w, f, h, version_printed (by decide) h early 19675 22 13 20 (by decide) (by decide) (by decide) rfl (by decide)⟩

/-- A database that says it was made after the year 2147485547: nothing is printed. -/
theorem version_late {f : Bytes} {db : Db} (ho : dbOpen f = .ok db) (h : 67768036191676799 < statedTime f) (early : Int → CStr) :
    versionCommand early (some f) = .ok ([], 1) := by
  rw [← open_created ho] at h
  unfold versionCommand withDatabase
  simp only
  rw [ho]
  simp only
  rw [if_pos (by
    unfold gmtimeRaises
    simp only [Bool.or_eq_true, decide_eq_true_eq]
    omega)]

end Loc.Props
