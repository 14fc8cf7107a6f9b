import Verif.Model.Network
/-
Model of `src/network-list.c`: a sorted array of networks.  The array is a `List`; its growth
(network-list.c:36-53) and reference counts are not modelled.
-/
namespace Loc

abbrev NetList := List Network

/-- Loop of `loc_network_list_find`, network-list.c:170-196.  Reading outside the array is
    `Fault.oob`.  The result is the returned index and `*found`. -/
def findLoop (l : NetList) (n : Network) (lo hi i : Int) : Nat → Res (Int × Bool)
  | 0 => .error .diverge
  | fuel + 1 =>
    if lo ≤ hi then
      let i := (lo + hi) / 2
      if i < 0 then .error .oob
      else match l[i.toNat]? with
        | none => .error .oob
        | some e =>
          let result := netCmp n e
          if result = 0 then .ok (i, true)
          else if result > 0 then findLoop l n (i + 1) hi (i + 1) fuel
          else findLoop l n lo (i - 1) i fuel
    else .ok (i, false)

/-- `loc_network_list_find`, network-list.c:134-209 -/
def listFind (l : NetList) (n : Network) : Res (Int × Bool) :=
  if l.length = 0 then .ok (0, false)
  else
    let hi : Int := (l.length : Int) - 1
    match l[hi.toNat]? with
    | none => .error .oob
    | some e =>
      let result := netCmp n e
      if result = 0 then .ok (hi, true)
      else if result > 0 then .ok (hi + 1, false)
      else findLoop l n 0 hi 0 (l.length + 1)

/-- `loc_network_list_push`, network-list.c:211-241 -/
def listPush (l : NetList) (n : Network) : Res NetList := do
  let (index, found) ← listFind l n
  if found then return l
  else if index < 0 ∨ index > l.length then throw .oob
  else return l.take index.toNat ++ n :: l.drop index.toNat

/-- `loc_network_list_pop`, network-list.c:243-255 -/
def listPop (l : NetList) : Option Network × NetList :=
  if l.length = 0 then (none, l) else (l[l.length - 1]?, l.take (l.length - 1))

/-- `loc_network_list_pop_first`, network-list.c:257-277 -/
def listPopFirst : NetList → Option Network × NetList
  | [] => (none, [])
  | n :: l => (some n, l)

/-- `loc_network_list_remove`, network-list.c:279-300 -/
def listRemove (l : NetList) (n : Network) : Res NetList := do
  let (index, found) ← listFind l n
  if !found then return l
  else if index < 0 ∨ index ≥ l.length then throw .oob
  else return l.take index.toNat ++ l.drop (index.toNat + 1)

/-- `loc_network_list_contains`, network-list.c:302-308 -/
def listContains (l : NetList) (n : Network) : Res Bool := do
  let (_, found) ← listFind l n
  return found

/-- `loc_network_list_merge`, network-list.c:310-321 -/
def listMerge (self : NetList) : NetList → Res NetList
  | [] => .ok self
  | n :: other => do
    let self ← listPush self n
    listMerge self other

/-- `loc_network_list_remove_with_prefix_smaller_than`, network-list.c:397-426: compaction loop,
    keeps exactly the elements with prefix at most `prefix`. -/
def listRemoveLonger (l : NetList) (prefix_ : Nat) : NetList :=
  l.filter (fun n => !decide (netPrefix n > prefix_))

/-- Loop of `loc_network_list_summarize`, network-list.c:355-392 -/
def summarizeLoop (start last : Addr) (list : NetList) : Nat → Res NetList
  | 0 => .error .diverge
  | fuel + 1 =>
    if addrCmp start last ≤ 0 then do
      let bits ← commonBits start last
      let bits := if bits = 0 then 1 else bits
      let network ← newNetwork start bits
      let list ← listPush list network
      let start := network.last
      if allOnes start then return list
      else summarizeLoop (addrInc start) last list fuel
    else .ok list

/-- `loc_network_list_summarize`, network-list.c:323-395.  (The partially filled list on error is
    not modelled.)  `fuel` bounds the loop. -/
def listSummarize (fuel : Nat) (first last : Addr) (list : NetList) : Res NetList :=
  if addrFamily first ≠ addrFamily last then .error (.err EINVAL)
  else if addrCmp first last ≥ 0 then .error (.err EINVAL)
  else summarizeLoop first last list fuel

/-- `__loc_network_exclude`, network.c:384-438.  Recursion bounded by `fuel`.  The pieces pushed
    before a failure stay on the list, so the list is returned in every case together with the
    return value. -/
def excludeRec (n other : Network) (list : NetList) : Nat → NetList × Res Unit
  | 0 => (list, .error .diverge)
  | fuel + 1 =>
    match subnets n with
    | .error e => (list, .error e)
    | .ok (s1, s2) =>
      if netCmp other s1 = 0 then
        match listPush list s2 with
        | .error e => (list, .error e)
        | .ok list => (list, .ok ())
      else if netCmp other s2 = 0 then
        match listPush list s1 with
        | .error e => (list, .error e)
        | .ok list => (list, .ok ())
      else if isSubnet s1 other then
        match listPush list s2 with
        | .error e => (list, .error e)
        | .ok list => excludeRec s1 other list fuel
      else if isSubnet s2 other then
        match listPush list s1 with
        | .error e => (list, .error e)
        | .ok list => excludeRec s2 other list fuel
      else
        (list, .error (.err 1))

/-- Recursion depth used for `__loc_network_exclude`: more than the number of address bits. -/
def excludeFuel : Nat := 130

/-- `__loc_network_exclude_to_list`, network.c:440-459 -/
def excludeToList (self other : Network) (list : NetList) : NetList × Res Unit :=
  if !isSubnet self other then (list, .ok ())
  else if netCmp self other = 0 then (list, .ok ())
  else excludeRec self other list excludeFuel

/-- `loc_network_exclude`, network.c:461-485 -/
def exclude (self other : Network) : Res NetList :=
  match excludeToList self other [] with
  | (_, .error e) => .error e
  | (list, .ok ()) => .ok list

/-- First loop of `loc_network_exclude_list`, network.c:499-515 -/
def excludeListCollect (n : Network) (toCheck : NetList) : NetList → Res NetList
  | [] => .ok toCheck
  | subnet :: rest =>
    match listContains toCheck subnet with
    | .error e => .error e
    | .ok true => excludeListCollect n toCheck rest
    | .ok false =>
      match excludeToList n subnet toCheck with
      | (_, .error e) => .error e
      | (toCheck, .ok ()) => excludeListCollect n toCheck rest

/-- Result of the inner loop of `loc_network_exclude_list` together with the new value of
    `smallest_subnet` -/
inductive ExclScan
  /-- passed all checks -/
  | passed (smallest : Nat)
  /-- dropped: part of a listed network -/
  | dropped (smallest : Nat)
  /-- overlaps listed network `s`: has to be broken down -/
  | split (s : Network) (smallest : Nat)

/-- Inner loop of `loc_network_exclude_list`, network.c:537-571; the last argument holds the
    elements of the list from index `i` on. -/
def exclScan (x : Network) (i smallest : Nat) : NetList → ExclScan
  | [] => .passed smallest
  | subnet :: rest =>
    if isSubnet subnet x then .dropped smallest
    else if overlaps subnet x then .split subnet smallest
    else
      let r := netCmp subnet x
      if r > 0 then .passed smallest
      else if r < 0 then exclScan x (i + 1) i rest
      else exclScan x (i + 1) smallest rest

/-- `while` loop of `loc_network_exclude_list`, network.c:525-578.  The return value of
    `__loc_network_exclude_to_list` is ignored in line 551: when splitting fails, the pieces pushed
    so far stay on the list.  `fuel` bounds the number of iterations. -/
def excludeListLoop (list : NetList) :
    (toCheck subnets : NetList) → (smallest : Nat) → Nat → Res NetList
  | _, _, _, 0 => .error .diverge
  | toCheck, subnets, smallest, fuel + 1 =>
    match listPopFirst toCheck with
    | (none, _) => .ok subnets
    | (some x, toCheck) =>
      match listContains list x with
      | .error e => .error e
      | .ok true => excludeListLoop list toCheck subnets smallest fuel
      | .ok false =>
        match exclScan x smallest smallest (list.drop smallest) with
        | .dropped sm => excludeListLoop list toCheck subnets sm fuel
        | .split s sm => excludeListLoop list (excludeToList x s toCheck).1 subnets sm fuel
        | .passed sm =>
          match listPush subnets x with
          | .error e => .error e
          | .ok subnets => excludeListLoop list toCheck subnets sm fuel

/-- `loc_network_exclude_list`, network.c:487-583 -/
def excludeList (fuel : Nat) (n : Network) (list : NetList) : Res NetList :=
  match excludeListCollect n [] list with
  | .error e => .error e
  | .ok toCheck => excludeListLoop list toCheck [] 0 fuel

end Loc
