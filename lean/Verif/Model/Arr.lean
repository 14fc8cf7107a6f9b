import Verif.Model.NetworkList
import Verif.Model.Writer
/-
The arrays behind `src/network-list.c`, `src/as-list.c` and `src/country-list.c`: the lists of pointers with the memory
that was allocated for them.
-/
namespace Loc

/-- `elements`, `elements_size` (the length of `cells`) and `size` of a list, network-list.c:25-33, as-list.c:24-32,
    country-list.c:25-33.  A cell without a value was never written. -/
structure Arr (α : Type) where
  cells : List (Option α)
  size : Nat

/-- `loc_network_list_new` etc., network-list.c:55-68: `calloc` -/
def arrNew {α : Type} : Arr α := ⟨[], 0⟩

/-- Reading `elements[i]`.  Reading outside of the array or a cell that was never written is a fault. -/
def arrRead {α : Type} (a : Arr α) (i : Nat) : Res α :=
  match a.cells[i]? with
  | some (some x) => .ok x
  | _ => .error .oob

/-- Writing `elements[i]` -/
def arrWrite {α : Type} (a : Arr α) (i : Nat) (x : α) : Res (Arr α) :=
  if i < a.cells.length then .ok { a with cells := a.cells.set i (some x) } else .error .oob

/-- By how much the array grows, network-list.c:37-39 -/
def growBy (elementsSize : Nat) : Nat := if elementsSize * 2 < 1024 then 1024 else elementsSize * 2

/-- `loc_network_list_grow`, network-list.c:36-53 (also as-list.c:33-50, country-list.c:34-51).  The allocation
    succeeds. -/
def arrGrow {α : Type} (a : Arr α) : Arr α := { a with cells := a.cells ++ List.replicate (growBy a.cells.length) none }

/-- network-list.c:224-229: "Check if we have space left" -/
def arrRoom {α : Type} (a : Arr α) : Arr α := if a.size ≥ a.cells.length then arrGrow a else a

/-- network-list.c:234-236, from `i` downwards: `for (; i > index; i--) elements[i] = elements[i - 1]` -/
def shiftUp {α : Type} (index : Nat) : Nat → Arr α → Res (Arr α)
  | 0, a => .ok a
  | i + 1, a =>
    if i + 1 > index then
      match arrRead a i with
      | .error e => .error e
      | .ok x =>
        match arrWrite a (i + 1) x with
        | .error e => .error e
        | .ok a => shiftUp index i a
    else .ok a

/-- network-list.c:266-269 and 292-294, `k` rounds from `i` on: `for (; i < size - 1; i++) elements[i] = elements[i + 1]` -/
def shiftDown {α : Type} : Nat → Nat → Arr α → Res (Arr α)
  | _, 0, a => .ok a
  | i, k + 1, a =>
    match arrRead a (i + 1) with
    | .error e => .error e
    | .ok x =>
      match arrWrite a i x with
      | .error e => .error e
      | .ok a => shiftDown (i + 1) k a

/-- The counter of these loops is an `unsigned int`: the loop does not end if `size - 1` does not fit. -/
def shiftDownFrom {α : Type} (i : Nat) (a : Arr α) : Res (Arr α) :=
  if a.size - 1 ≥ 2 ^ 32 then .error .diverge else shiftDown i (a.size - 1 - i) a

/-! ### Networks -/

/-- Loop of `loc_network_list_find`, network-list.c:170-196, see `findLoop` -/
def arrFindLoop (a : Arr Network) (n : Network) (lo hi i : Int) : Nat → Res (Int × Bool)
  | 0 => .error .diverge
  | fuel + 1 =>
    if lo ≤ hi then
      if (lo + hi) / 2 < 0 then .error .oob
      else match arrRead a ((lo + hi) / 2).toNat with
        | .error e => .error e
        | .ok e =>
          if netCmp n e = 0 then .ok ((lo + hi) / 2, true)
          else if netCmp n e > 0 then arrFindLoop a n ((lo + hi) / 2 + 1) hi ((lo + hi) / 2 + 1) fuel
          else arrFindLoop a n lo ((lo + hi) / 2 - 1) ((lo + hi) / 2) fuel
    else .ok (i, false)

/-- `loc_network_list_find`, network-list.c:134-209 -/
def arrFind (a : Arr Network) (n : Network) : Res (Int × Bool) :=
  if a.size = 0 then .ok (0, false)
  else match arrRead a (a.size - 1) with
    | .error e => .error e
    | .ok e =>
      if netCmp n e = 0 then .ok ((a.size : Int) - 1, true)
      else if netCmp n e > 0 then .ok ((a.size : Int) - 1 + 1, false)
      else arrFindLoop a n 0 ((a.size : Int) - 1) 0 (a.size + 1)

/-- The insertion, network-list.c:224-239.  The counter of the loop is an `unsigned int`. -/
def arrInsert {α : Type} (a : Arr α) (index : Nat) (x : α) : Res (Arr α) :=
  match shiftUp index (a.size % 2 ^ 32) { arrRoom a with size := a.size + 1 } with
  | .error e => .error e
  | .ok a => arrWrite a index x

/-- `loc_network_list_push`, network-list.c:211-241 -/
def arrPush (a : Arr Network) (n : Network) : Res (Arr Network) :=
  match arrFind a n with
  | .error e => .error e
  | .ok (index, found) =>
    if found then .ok a
    else if index < 0 then .error .oob
    else arrInsert a index.toNat n

/-- `loc_network_list_pop`, network-list.c:243-255 -/
def arrPop (a : Arr Network) : Res (Option Network × Arr Network) :=
  if a.size = 0 then .ok (none, a)
  else match arrRead a (a.size - 1) with
    | .error e => .error e
    | .ok n => .ok (some n, { a with size := a.size - 1 })

/-- `loc_network_list_pop_first`, network-list.c:257-277 -/
def arrPopFirst (a : Arr Network) : Res (Option Network × Arr Network) :=
  if a.size = 0 then .ok (none, a)
  else match arrRead a 0 with
    | .error e => .error e
    | .ok n =>
      match shiftDownFrom 0 a with
      | .error e => .error e
      | .ok a => .ok (some n, { a with size := a.size - 1 })

/-- `loc_network_list_remove`, network-list.c:279-300 -/
def arrRemove (a : Arr Network) (n : Network) : Res (Arr Network) :=
  match arrFind a n with
  | .error e => .error e
  | .ok (index, found) =>
    if !found then .ok a
    else if index < 0 then .error .oob
    else match arrRead a index.toNat with
      | .error e => .error e
      | .ok _ =>
        match shiftDownFrom index.toNat a with
        | .error e => .error e
        | .ok a => .ok { a with size := a.size - 1 }

/-- `loc_network_list_contains`, network-list.c:302-308 -/
def arrContains (a : Arr Network) (n : Network) : Res Bool :=
  match arrFind a n with
  | .error e => .error e
  | .ok (_, found) => .ok found

/-- `loc_network_list_merge`, network-list.c:310-321; the other list is given by its elements. -/
def arrMerge (a : Arr Network) : List Network → Res (Arr Network)
  | [] => .ok a
  | n :: other =>
    match arrPush a n with
    | .error e => .error e
    | .ok a => arrMerge a other

/-- `loc_network_list_get`, network-list.c:126-132 -/
def arrGet {α : Type} (a : Arr α) (i : Nat) : Res (Option α) :=
  if i ≥ a.size then .ok none
  else match arrRead a i with
    | .error e => .error e
    | .ok x => .ok (some x)

/-- Loop of `loc_network_list_remove_with_prefix_smaller_than`, network-list.c:404-420, with `k` rounds left. -/
def compactLoop (pfx : Nat) : Nat → Nat → Nat → Arr Network → Res (Nat × Arr Network)
  | _, removed, 0, a => .ok (removed, a)
  | i, removed, k + 1, a =>
    match arrRead a i with
    | .error e => .error e
    | .ok n =>
      if netPrefix n > pfx then compactLoop pfx (i + 1) (removed + 1) k a
      else match arrWrite a (i - removed) n with
        | .error e => .error e
        | .ok a => compactLoop pfx (i + 1) removed k a

/-- `loc_network_list_remove_with_prefix_smaller_than`, network-list.c:397-426.  The counter is an `unsigned int`. -/
def arrRemoveLonger (a : Arr Network) (pfx : Nat) : Res (Arr Network) :=
  if a.size > 2 ^ 32 then .error .diverge
  else match compactLoop pfx 0 0 a.size a with
    | .error e => .error e
    | .ok (removed, b) => .ok { b with size := b.size - removed }

/-! ### ASes and countries -/

/-- `loc_as_list_contains`, as-list.c:143-151, and `loc_country_list_contains`, country-list.c:143-151: compares the first
    `k` elements from `i` on.  (The counter is an `unsigned int`.) -/
def arrAny {α : Type} (p : α → Bool) (a : Arr α) : Nat → Nat → Res Bool
  | _, 0 => .ok false
  | i, k + 1 =>
    match arrRead a i with
    | .error e => .error e
    | .ok x => if p x then .ok true else arrAny p a (i + 1) k

/-- `loc_as_list_append`, as-list.c:124-141, and `loc_country_list_append`, country-list.c:122-139; `same` is `cmp == 0`. -/
def arrAppend {α : Type} (same : α → α → Bool) (a : Arr α) (x : α) : Res (Arr α) :=
  if a.size > 2 ^ 32 then .error .diverge
  else match arrAny (same x) a 0 a.size with
    | .error e => .error e
    | .ok true => .ok a
    | .ok false => arrWrite { arrRoom a with size := a.size + 1 } a.size x

end Loc
