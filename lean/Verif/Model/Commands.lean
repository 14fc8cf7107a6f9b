import Verif.Model.Update
import Verif.Model.Dates
/-
Model of `location verify` and `location version`: `CLI.run`, `handle_verify` and `handle_version` of `src/scripts/location.in`.
The messages on standard error are left out.
-/
namespace Loc

/-- `CLI.run`, location.in:206-251, for commands other than `update`: without a file the exit code is 1; other failures to open
    it raise an exception that nobody catches, which is exit code 1, too; then the command runs on the database. -/
def withDatabase {α : Type} (failed : Nat → α) (file : Option Bytes) (command : Db → Res α) : Res α :=
  match file with
  | none => .ok (failed 1)
  | some b =>
    match dbOpen b with
    | .error (.err _) => .ok (failed 1)
    | .error e => .error e
    | .ok db => command db

/-- `location verify`: `handle_verify`, location.in:476-485, with `Database_verify`, python/database.c:84-110.  `keyThere`:
    the file with the public key can be opened (otherwise an exception gives exit code 1, lines 240-243). -/
def verifyCommand {P : Type} (v : VEnv P) (keyThere : Bool) (file : Option Bytes) : Res Nat :=
  withDatabase id file fun db =>
    if keyThere then
      match dbVerify v db with
      | .error e => .error e
      | .ok r => .ok (if r = 0 then 0 else 1)
    else .ok 1

/-- `location version`: `handle_version`, location.in:253-261: what is printed, and the exit code.  `time.gmtime` raises an
    exception for years that do not fit into an `int` (exit code 1).  The text for times before 1970 is a parameter. -/
def versionCommand (early : Int → CStr) (file : Option Bytes) : Res (CStr × Nat) :=
  withDatabase (fun code => ([], code)) file fun db =>
    if gmtimeRaises (pyCreatedAt db) then .ok ([], 1)
    else
      match pyCreatedAt db with
      | .ofNat t => .ok (dateText t ++ [10], 0)
      | t => .ok (early t ++ [10], 0)

end Loc
