import Verif.Model.Bindings
/-
Model of comparisons of objects in Python and Lua: `src/python/{network,as,country}.c` (`*_richcompare`, `*_hash`, `AS_init`,
`AS_get_number`), `src/lua/{country,as,network}.c` (`__eq`).

The parts of the interpreters that call these functions are modelled as documented: CPython's `do_richcompare`
(Objects/object.c), sets, `list.sort`; Lua's `luaV_equalobj` (lvm.c).  Subclasses written in Python are left out.
-/
namespace Loc

/-- What a script object wraps: `NetworkObject`, `ASObject`, `CountryObject`, or anything else.  The pointer inside is NULL
    (`none`) if `__init__` was never called or failed (`Network_new`, python/network.c:57-61, `AS_new`, python/as.c:34-38,
    `Country_new`, python/country.c:34-38). -/
inductive Thing
  | network (n : Option Network)
  | as (a : Option AS)
  | country (c : Option Country)
  | other
  deriving DecidableEq, Repr

/-- A reference to a script object: two references to the same object have the same `id`. -/
structure PyRef where
  id : Nat
  thing : Thing
  deriving DecidableEq, Repr

/-- `Py_LT` and so on -/
inductive CmpOp
  | lt | le | eq | ne | gt | ge
  deriving DecidableEq, Repr

/-- `_Py_SwappedOp`, CPython Objects/object.c -/
def CmpOp.swap : CmpOp → CmpOp
  | .lt => .gt
  | .le => .ge
  | .eq => .eq
  | .ne => .ne
  | .gt => .lt
  | .ge => .le

/-- `loc_as_cmp`, as.c:104-112 -/
def asCmp (a b : AS) : Int :=
  if a.number > b.number then 1 else if a.number < b.number then -1 else 0

/-- The `switch` of python/network.c:262-280, python/as.c:116-134, python/country.c:135-153: what becomes of the result of
    the library; `none` is `NotImplemented`. -/
def cmpResult (r : Int) : CmpOp → Option Bool
  | .eq => some (r == 0)
  | .lt => some (r < 0)
  | _ => none

/-- `Network_richcompare`, python/network.c:251-281, `AS_richcompare`, python/as.c:105-134, `Country_richcompare`,
    python/country.c:124-153: the library follows the pointers without looking.  Other objects do not know ours. -/
def richcompare (self other : Thing) (op : CmpOp) : Res (Option Bool) :=
  match self, other with
  | .network a, .network b =>
    match a, b with
    | some a, some b => .ok (cmpResult (netCmp a b) op)
    | _, _ => .error .oob
  | .as a, .as b =>
    match a, b with
    | some a, some b => .ok (cmpResult (asCmp a b) op)
    | _, _ => .error .oob
  | .country a, .country b =>
    match a, b with
    | some a, some b => .ok (cmpResult (countryCmp a b) op)
    | _, _ => .error .oob
  | _, _ => .ok none

/-- `do_richcompare`, CPython Objects/object.c: the operators `<`, `<=`, `==`, `!=`, `>`, `>=`.  If neither of the objects
    can tell, `==` and `!=` compare identities and the others raise a `TypeError`.  (The default `__ne__` that negates
    `__eq__` belongs to `object` and is replaced by any `tp_richcompare`.) -/
def pyCompare (v w : PyRef) (op : CmpOp) : Res (Call Bool) :=
  match richcompare v.thing w.thing op with
  | .error e => .error e
  | .ok (some b) => .ok (.ret b)
  | .ok none =>
    match richcompare w.thing v.thing op.swap with
    | .error e => .error e
    | .ok (some b) => .ok (.ret b)
    | .ok none =>
      match op with
      | .eq => .ok (.ret (v.id == w.id))
      | .ne => .ok (.ret (v.id != w.id))
      | _ => .ok (.exc .type)

/-- Placing an object into a sorted list, behind all that are not greater. -/
def pyInsert (x : PyRef) : List PyRef → Res (Call (List PyRef))
  | [] => .ok (.ret [x])
  | y :: l =>
    match pyCompare x y .lt with
    | .error e => .error e
    | .ok (.exc e) => .ok (.exc e)
    | .ok (.ret true) => .ok (.ret (x :: y :: l))
    | .ok (.ret false) =>
      match pyInsert x l with
      | .error e => .error e
      | .ok (.exc e) => .ok (.exc e)
      | .ok (.ret l) => .ok (.ret (y :: l))

/-- The rest of the sorting: `done` is sorted. -/
def pySortInto (done : List PyRef) : List PyRef → Res (Call (List PyRef))
  | [] => .ok (.ret done)
  | x :: l =>
    match pyInsert x done with
    | .error e => .error e
    | .ok (.exc e) => .ok (.exc e)
    | .ok (.ret done) => pySortInto done l

/-- `sorted(l)`.  CPython sorts by merging runs; like all stable sorting functions it gives the same result as this one if
    `<` is an order.  It uses nothing but `<`. -/
def pySorted (l : List PyRef) : Res (Call (List PyRef)) := pySortInto [] l

/-- How hashes are made: `bits` is the size of `Py_hash_t` and `long`, `ofText` is the hash function for strings, `ofOther`
    that of other objects. -/
structure Hashing where
  bits : Nat
  ofText : CStr → Int
  ofOther : Nat → Int

/-- `hash(x)`: `AS_hash`, python/as.c:136-140, `Country_hash`, python/country.c:155-170.  `-1` stands for an exception; if none
    was set the interpreter raises a `SystemError`.  A type with `tp_richcompare` and without `tp_hash` is not hashable
    (python/network.c:394-409; `type_ready_set_hash` in CPython Objects/typeobject.c). -/
def pyHash (h : Hashing) (x : PyRef) : Res (Call Int) :=
  match x.thing with
  | .network _ => .ok (.exc .type)
  | .as none => .error .oob
  | .as (some a) =>
    let r := if a.number.toNat < 2 ^ (h.bits - 1) then (a.number.toNat : Int) else a.number.toNat - 2 ^ h.bits
    if r = -1 then .ok (.exc .system) else .ok (.ret r)
  | .country none => .error .oob
  | .country (some c) => .ok (.ret (h.ofText (countryGetCode c)))
  | .other => .ok (.ret (h.ofOther x.id))

/-- Is there an object with the same hash that is the same, or equal? (`set_add_entry`, CPython Objects/setobject.c, which
    compares `entry == key`) -/
def pySetHas (h : Hashing) (hx : Int) (x : PyRef) : List PyRef → Res (Call Bool)
  | [] => .ok (.ret false)
  | y :: l =>
    match pyHash h y with
    | .error e => .error e
    | .ok (.exc e) => .ok (.exc e)
    | .ok (.ret hy) =>
      if hy = hx then
        if y.id = x.id then .ok (.ret true)
        else
          match pyCompare y x .eq with
          | .error e => .error e
          | .ok (.exc e) => .ok (.exc e)
          | .ok (.ret true) => .ok (.ret true)
          | .ok (.ret false) => pySetHas h hx x l
      else pySetHas h hx x l

/-- `s.add(x)`, which is also what happens to keys of dictionaries. -/
def pySetAdd (h : Hashing) (s : List PyRef) (x : PyRef) : Res (Call (List PyRef)) :=
  match pyHash h x with
  | .error e => .error e
  | .ok (.exc e) => .ok (.exc e)
  | .ok (.ret hx) =>
    match pySetHas h hx x s with
    | .error e => .error e
    | .ok (.exc e) => .ok (.exc e)
    | .ok (.ret true) => .ok (.ret s)
    | .ok (.ret false) => .ok (.ret (s ++ [x]))

/-- `set(l)` -/
def pySet (h : Hashing) (s : List PyRef) : List PyRef → Res (Call (List PyRef))
  | [] => .ok (.ret s)
  | x :: l =>
    match pySetAdd h s x with
    | .error e => .error e
    | .ok (.exc e) => .ok (.exc e)
    | .ok (.ret s) => pySet h s l

/-- `AS_init`, python/as.c:47-60 -/
def pyAs (n : Int) : Call AS :=
  match argInt n with
  | .exc e => .exc e
  | .ret number => .ret ⟨number, none⟩

/-- `AS_get_number`, python/as.c:81-85, and `Network_get_asn`, python/network.c:119-126: `PyLong_FromLong` with a `long` of
    `bits` bits -/
def pyAsNumber (bits : Nat) (number : BitVec 32) : Int :=
  if number.toNat < 2 ^ (bits - 1) then (number.toNat : Int) else number.toNat - 2 ^ bits

/-! ## Lua -/

/-- What becomes of `v == w` in Lua: an answer, or an error that ends the script (or the protected call). -/
inductive LuaEq
  | answer (b : Bool)
  | raised
  deriving DecidableEq, Repr

/-- `v == w`.  Equal references are equal.  Otherwise the `__eq` function of the first or the second object is called
    (luaV_equalobj, lvm.c of Lua 5.3 and later; `strict` is the rule of 5.1 and 5.2, which call it only if both objects have
    the same one).  Only countries have one (lua/country.c:131-140): `Country_eq`, lua/country.c:88-96, which raises an error
    if it gets something else.  `other` is anything that is not of the type `userdata`; values of different types are never
    equal, and no function is asked. -/
def luaEq (strict : Bool) (v w : PyRef) : Res LuaEq :=
  if v.id = w.id then .ok (.answer true)
  else
    match v.thing, w.thing with
    | .country a, .country b =>
      match a, b with
      | some a, some b => .ok (.answer (countryCmp a b == 0))
      | _, _ => .error .oob
    | .other, _ => .ok (.answer false)
    | _, .other => .ok (.answer false)
    | .country _, _ => if strict then .ok (.answer false) else .ok .raised
    | _, .country _ => if strict then .ok (.answer false) else .ok .raised
    | _, _ => .ok (.answer false)

end Loc
