import Verif.Model.Enumerator
/-
Model of bogon enumerations, `src/database.c` lines 1528-1665.
-/
namespace Loc

/-- `loc_network_list_pop_first` as used in database.c:1539, 1618 and 1662: the first network of the list, or `NULL` with
    return value 0 -/
def popBogon (e : NetEnum) : Next Network × NetEnum :=
  match e.stack with
  | [] => (.done, e)
  | n :: l => (.item n, { e with stack := l })

/-- database.c:1597-1605, 1630-1635, 1646-1651: if `start` is not after `last`, put the summary of the range onto the stack.
    `none`: `loc_network_list_summarize` fails (the networks it pushed before are not modelled: it fails only before the
    first one, see `summarize_rejects` and `range_summary_covers_partial`).  Its loop is bounded by 128 rounds. -/
def pushGap (start last : Addr) (stack : NetList) : Res (Option NetList) :=
  if addrCmp start last ≤ 0 then
    match listSummarize 128 start last stack with
    | .error (.err _) => .ok none
    | .error x => .error x
    | .ok stack => .ok (some stack)
  else .ok (some stack)

/-- `FINISH`, database.c:1624-1664 -/
def finishBogons (e : NetEnum) : Res (Next Network × NetEnum) :=
  match (if !allZeroes e.gap6 then pushGap e.gap6 (addrResetLast .inet6) e.stack else .ok (some e.stack)) with
  | .error x => .error x
  | .ok none => .ok (.failed, e)
  | .ok (some stack) =>
    let e := { e with stack := stack, gap6 := if !allZeroes e.gap6 then addrReset .inet6 else e.gap6 }
    match (if !allZeroes e.gap4 then pushGap e.gap4 (addrResetLast .inet) e.stack else .ok (some e.stack)) with
    | .error x => .error x
    | .ok none => .ok (.failed, e)
    | .ok (some stack) =>
      .ok (popBogon { e with stack := stack, gap4 := if !allZeroes e.gap4 then addrReset .inet else e.gap4 })

/-- database.c:1577-1590: the start of the gap of the family -/
def gapOf (gap6 gap4 : Addr) : Family → Addr
  | .inet6 => gap6
  | .inet => gap4

/-- The loop of `__loc_database_enumerator_next_bogon`, database.c:1554-1621.  After an error `*bogon`
    is `NULL`.  `fuel` bounds the number of networks read. -/
def bogonLoop (db : Db) : Nat → NetEnum → Res (Next Network × NetEnum)
  | 0, _ => .error .diverge
  | fuel + 1, e =>
    match nextNetworkRaw db true e with
    | .error x => .error x
    | .ok (.failed, e) => .ok (.failed, e)
    | .ok (.failedHeld, e) => .ok (.failed, e)
    | .ok (.done, e) => finishBogons e
    | .ok (.item n, e) =>
      if countryCode n = [] then bogonLoop db fuel e
      else
        let gapStart := gapOf e.gap6 e.gap4 n.family
        if addrCmp gapStart n.last ≥ 0 then bogonLoop db fuel e
        else
          match pushGap gapStart (addrDec n.first) e.stack with
          | .error x => .error x
          | .ok none => .ok (.failed, e)
          | .ok (some stack) =>
            let e := { e with
              stack := stack
              gap6 := if n.family = Family.inet6 then addrInc n.last else e.gap6
              gap4 := if n.family = Family.inet then addrInc n.last else e.gap4 }
            match e.stack with
            | [] => bogonLoop db fuel e
            | b :: l => .ok (.item b, { e with stack := l })

/-- `__loc_database_enumerator_next_bogon`, database.c:1531-1665 -/
def nextBogon (db : Db) (fuel : Nat) (e : NetEnum) : Res (Next Network × NetEnum) :=
  match e.stack with
  | b :: l => .ok (.item b, { e with stack := l })
  | [] => bogonLoop db fuel e

end Loc
