import Verif.Model.Update
import Verif.Spec.File
/-
Specification vocabulary for updates.
-/
namespace Loc.Spec
open Loc

/-- The bytes a mirror has delivered. -/
def delivered : Reply → Bytes
  | .data b => b
  | .corrupt b => b
  | .httpError _ => []
  | .lost b => b

/-- The creation time a database file states: bytes 8 to 15, a signed big-endian number. -/
def statedTime (f : Bytes) : Int := toSigned64 (beVal ((f.drop 8).take 8))

end Loc.Spec
