import Verif.Model.Enumerator
/-
Model of flattened enumerations, `src/database.c` lines 1421-1526.
-/
namespace Loc

/-- database.c:1441-1481: collect the following networks while they are subnets of `n`; the first other one goes back
    onto the stack.  `none`: an error is returned (the list of subnets is cleared).  After an error the network that could
    not be read is released (line 1446); if there is none, `loc_network_unref` writes through a null pointer.  `fuel` bounds
    the number of networks read. -/
def collectSubnets (db : Db) (n : Network) : Nat → NetEnum → NetList → Res (Option NetList × NetEnum)
  | 0, _, _ => .error .diverge
  | fuel + 1, e, subnets =>
    match nextNetworkRaw db false e with
    | .error x => .error x
    | .ok (.failed, _) => .error .oob
    | .ok (.failedHeld, e) => .ok (none, e)
    | .ok (.done, e) => .ok (some subnets, e)
    | .ok (.item m, e) =>
      if isSubnet n m then
        match listPush subnets m with
        | .error x => .error x
        | .ok subnets => collectSubnets db n fuel e subnets
      else
        match listPush e.stack m with
        | .error x => .error x
        | .ok stack => .ok (some subnets, { e with stack := stack })

/-- `__loc_database_enumerator_next_network_flattened`, database.c:1421-1526.  The list `subnets` of the enumerator is
    empty between calls.  If the exclusion fails, the subnets are lost and the function returns 1;
    `*network` remains set.  `fuel` bounds the
    recursion and the number of networks read. -/
def nextFlat (db : Db) : Nat → NetEnum → Res (Next Network × NetEnum)
  | 0, _ => .error .diverge
  | fuel + 1, e =>
    match nextNetworkRaw db true e with
    | .error x => .error x
    | .ok (.failed, e) => .ok (.failed, e)
    | .ok (.failedHeld, e) => .ok (.failedHeld, e)
    | .ok (.done, e) => .ok (.done, e)
    | .ok (.item n, e) =>
      match collectSubnets db n (fuel + 1) e [] with
      | .error x => .error x
      | .ok (none, e) => .ok (.failedHeld, e)
      | .ok (some subnets, e) =>
        if subnets.isEmpty then .ok (.item n, e)
        else
          match excludeList (128 * subnets.length + 1) n subnets with
          | .error (.err _) => .ok (.failedHeld, e)
          | .error x => .error x
          | .ok excluded =>
            match listMerge e.stack subnets with
            | .error x => .error x
            | .ok stack =>
              match listMerge stack excluded with
              | .error x => .error x
              | .ok stack => nextFlat db fuel { e with stack := stack }

/-- `loc_database_enumerator_next_network`, database.c:1667-1683, with `flatten` set -/
def nextNetworkFlat (db : Db) (fuel : Nat) (e : NetEnum) : Res (Next Network × NetEnum) := nextFlat db fuel e

end Loc
