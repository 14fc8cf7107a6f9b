import Verif.Lemmas.Steps
import Verif.Props.File
/-
C99: questions for ASes and countries take few steps.
-/
namespace Loc.Props
open Loc Loc.Spec

/-- With fewer than `2 ^ k` ASes in a database, a question for an AS ends within `k + 1` rounds (the last one finds
    that nothing is left): nothing is gained by allowing more, and the loop does not run out of rounds. -/
theorem as_search_steps (db : Db) (number : BitVec 32) {k : Nat} (h : db.asCount < 2 ^ k) :
    getAsLoop db number (k + 1) 0 (db.asCount - 1) = getAs db number ∧
      getAsLoop db number (k + 1) 0 (db.asCount - 1) ≠ .error .diverge := by
  have h1 := getAsLoop_rounds db number k 0 (db.asCount - 1) (max (k + 1) (db.asCount + 1)) (pow_cast h) (by omega)
  have h2 := getAsLoop_rounds db number db.asCount 0 (db.asCount - 1) (max (k + 1) (db.asCount + 1)) (pow_cast Nat.lt_two_pow_self) (by omega)
  have h3 : getAsLoop db number (k + 1) 0 (db.asCount - 1) = getAs db number := by rw [← h1, h2]; rfl
  refine ⟨h3, fun e => ?_⟩
  rw [h3] at e
  cases (getAs_reads db number _ e).1

/-- The same for countries. -/
theorem country_search_steps (db : Db) (code : CStr) (hc : ValidCC code) {k : Nat} (h : db.countryCount < 2 ^ k) :
    getCountryLoop db code (k + 1) 0 (db.countryCount - 1) = getCountry db (some code) ∧
      getCountryLoop db code (k + 1) 0 (db.countryCount - 1) ≠ .error .diverge := by
  have h1 := getCountryLoop_rounds db code k 0 (db.countryCount - 1) (max (k + 1) (db.countryCount + 1)) (pow_cast h) (by omega)
  have h2 := getCountryLoop_rounds db code db.countryCount 0 (db.countryCount - 1) (max (k + 1) (db.countryCount + 1)) (pow_cast Nat.lt_two_pow_self) (by omega)
  have h3 : getCountryLoop db code (k + 1) 0 (db.countryCount - 1) = getCountry db (some code) := by
    rw [← h1, h2, getCountry, (ccIsValid_iff code).mpr hc]; rfl
  refine ⟨h3, fun e => ?_⟩
  rw [← h1, h2] at e
  cases (getCountryLoop_reads db code _ _ _ (by omega) (by omega) _ e).1

/-- Whatever file is opened, however it was made: 30 rounds are enough. -/
theorem search_steps_any {f : Bytes} {db : Db} (h : dbOpen f = .ok db) :
    (∀ number, getAsLoop db number 30 0 (db.asCount - 1) = getAs db number ∧
      getAsLoop db number 30 0 (db.asCount - 1) ≠ .error .diverge) ∧
    ∀ code, ValidCC code → getCountryLoop db code 30 0 (db.countryCount - 1) = getCountry db (some code) ∧
      getCountryLoop db code 30 0 (db.countryCount - 1) ≠ .error .diverge :=
  ⟨fun number => as_search_steps db number (open_counts h).1, fun code hc => country_search_steps db code hc (open_counts h).2⟩

/-- The sample database has two ASes and three countries: three rounds. -/
example : ∃ w f db, Written 32 none none demoOps demoEnv w f ∧ dbOpen f = .ok db ∧ db.asCount = 2 ∧ db.countryCount = 3 ∧
    ∀ number, getAsLoop db number 3 0 1 = getAs db number := by
  obtain ⟨w, f, db, h1, h2, h3⟩ := ask_written (e := demoEnv) (ops := demoOps) (q := fun db => .ok (db.asCount, db.countryCount))
    (x := (2, 3)) rfl demo_ok (by decide +kernel)
  obtain ⟨e1, e2⟩ := Prod.mk.inj (Except.ok.inj h3)
  refine ⟨w, f, db, h1, h2, e1, e2, fun number => ?_⟩
  have := (as_search_steps db number (k := 2) (by omega)).1
  rwa [e1] at this

end Loc.Props
