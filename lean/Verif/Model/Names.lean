import Verif.Model.Basic
/-
The names of `struct loc_as` (`src/as.c`) and `struct loc_country` (`src/country.c`): allocated strings that belong to a
reference counted object.
-/
namespace Loc

/-- `struct loc_as`, as.c:34-40, and `struct loc_country`, country.c:38-48: the reference counter (0: the object was freed)
    and the pointer to the name.  The other fields are not part of this model. -/
structure NameObj where
  country : Bool
  refs : Nat
  name : Option Nat

/-- The memory: the allocated strings (`none`: freed) and the objects. -/
structure NameMem where
  blocks : List (Option CStr)
  objs : List NameObj

/-- The second argument of `set_name`: NULL, a string of the caller, or the pointer `get_name` returns for an object. -/
inductive NameArg
  | null
  | str (s : CStr)
  | nameOf (o : Nat)
  deriving DecidableEq

inductive NameOp
  | new (country : Bool)
  | ref (o : Nat)
  | unref (o : Nat)
  | setName (o : Nat) (arg : NameArg)
  | getName (o : Nat)

/-- Following a pointer to an object.  After the object was freed this is a fault. -/
def nameObj (m : NameMem) (o : Nat) : Res NameObj :=
  match m.objs[o]? with
  | some x => if x.refs = 0 then .error .oob else .ok x
  | none => .error .oob

/-- Reading the string at a pointer.  Reading freed memory is a fault. -/
def nameLoad (m : NameMem) (b : Nat) : Res CStr :=
  match m.blocks[b]? with
  | some (some s) => .ok s
  | _ => .error .oob

/-- `free`.  Freeing freed memory is a fault. -/
def nameFree (m : NameMem) (b : Nat) : Res NameMem :=
  match m.blocks[b]? with
  | some (some _) => .ok { m with blocks := m.blocks.set b none }
  | _ => .error .oob

/-- `if (as->name) free(as->name)`, as.c:68-69 and 93-94, country.c:79-80 and 126-127 -/
def nameFreeOpt (m : NameMem) : Option Nat → Res NameMem
  | none => .ok m
  | some b => nameFree m b

/-- The field `name` of an object -/
def namePut (m : NameMem) (o : Nat) (x : NameObj) (name : Option Nat) : NameMem :=
  { m with objs := m.objs.set o { x with name := name } }

/-- `strdup` of the argument: the allocation succeeds and gives memory that was not used before. -/
def nameDup (m : NameMem) (o : Nat) (x : NameObj) (s : CStr) : NameMem :=
  namePut { m with blocks := m.blocks ++ [some s] } o x (some m.blocks.length)

/-- What the argument points to before the call: `get_name` is called first. -/
def nameArg (m : NameMem) : NameArg → Res (Option (CStr ⊕ Nat))
  | .null => .ok none
  | .str s => .ok (some (.inl s))
  | .nameOf o =>
    match nameObj m o with
    | .error e => .error e
    | .ok x => .ok (x.name.map .inr)

/-- `loc_as_set_name`, as.c:92-102, and `loc_country_set_name`, country.c:125-138, after the old name was freed -/
def nameStore (m : NameMem) (o : Nat) (x : NameObj) : Option (CStr ⊕ Nat) → Res NameMem
  | none => .ok (if x.country then m else namePut m o x none)
  | some (.inl s) => .ok (nameDup m o x s)
  | some (.inr b) =>
    match nameLoad m b with
    | .error e => .error e
    | .ok s => .ok (nameDup m o x s)

/-- `set_name(o, arg)` -/
def setName (m : NameMem) (o : Nat) (arg : NameArg) : Res NameMem :=
  match nameArg m arg with
  | .error e => .error e
  | .ok p =>
    match nameObj m o with
    | .error e => .error e
    | .ok x =>
      match nameFreeOpt m x.name with
      | .error e => .error e
      | .ok m => nameStore m o x p

/-- `get_name`, as.c:88-90 and country.c:121-123, followed by reading the string -/
def getName (m : NameMem) (o : Nat) : Res (Option CStr) :=
  match nameObj m o with
  | .error e => .error e
  | .ok x =>
    match x.name with
    | none => .ok none
    | some b =>
      match nameLoad m b with
      | .error e => .error e
      | .ok s => .ok (some s)

/-- `loc_as_unref`, as.c:75-82, and `loc_country_unref`, country.c:86-92 -/
def nameUnref (m : NameMem) (o : Nat) : Res NameMem :=
  match nameObj m o with
  | .error e => .error e
  | .ok x =>
    if x.refs = 1 then
      match nameFreeOpt m x.name with
      | .error e => .error e
      | .ok m => .ok { m with objs := m.objs.set o { x with refs := 0 } }
    else .ok { m with objs := m.objs.set o { x with refs := x.refs - 1 } }

/-- `loc_as_ref`, as.c:60-64, and `loc_country_ref`, country.c:70-74.  The counter does not overflow. -/
def nameRef (m : NameMem) (o : Nat) : Res NameMem :=
  match nameObj m o with
  | .error e => .error e
  | .ok x => .ok { m with objs := m.objs.set o { x with refs := x.refs + 1 } }

/-- One call with what it returns: the string for `get_name`, otherwise nothing. -/
def nameStep (m : NameMem) : NameOp → Res (NameMem × Option (Option CStr))
  | .new country => .ok ({ m with objs := m.objs ++ [⟨country, 1, none⟩] }, none)
  | .ref o => match nameRef m o with
    | .error e => .error e
    | .ok m => .ok (m, none)
  | .unref o => match nameUnref m o with
    | .error e => .error e
    | .ok m => .ok (m, none)
  | .setName o arg => match setName m o arg with
    | .error e => .error e
    | .ok m => .ok (m, none)
  | .getName o => match getName m o with
    | .error e => .error e
    | .ok s => .ok (m, some s)

def nameRun (m : NameMem) : List NameOp → Res (NameMem × List (Option (Option CStr)))
  | [] => .ok (m, [])
  | op :: ops =>
    match nameStep m op with
    | .error e => .error e
    | .ok (m, o) =>
      match nameRun m ops with
      | .error e => .error e
      | .ok (m, os) => .ok (m, o :: os)

end Loc
