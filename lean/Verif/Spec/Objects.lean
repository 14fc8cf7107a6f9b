import Verif.Model.Objects
/-
What a program does with objects of the library, which references it holds, and what is still in use.
-/
namespace Loc.Spec
open Loc Loc.Objects

/-- The pointers of an object, and the types of what they point to. -/
def pointers : Obj → List (Nat × OKind)
  | .block => []
  | .ctx => []
  | .item _ ctx _ name => (ctx, .ctx) :: name.toList.map (·, .block)
  | .list k ctx array _ elements => (ctx, .ctx) :: (array.toList.map (·, .block) ++ elements.map (·, .item k))
  | .pool ctx blocks _ _ => (ctx, .ctx) :: blocks.toList.map (·, .block)
  | .node ctx => [(ctx, .ctx)]
  | .tree ctx root => (ctx, .ctx) :: root.toList.map (·, .node)
  | .db ctx data pool file _ _ =>
    (ctx, .ctx) :: (data.toList.map (·, .block) ++ (pool.toList.map (·, .pool) ++ file.toList.map (·, .block)))
  | .enum ctx db _ string countries asns visited stack _ _ =>
    (ctx, .ctx) :: (db, .db) :: (string.toList.map (·, .block) ++ (countries.toList.map (·, .list .country) ++
      (asns.toList.map (·, .list .as) ++ (visited.toList.map (·, .block) ++ stack.toList.map (·, .list .network)))))
  | .writer ctx pool networks asns countries key1 key2 =>
    (ctx, .ctx) :: (pool.toList.map (·, .pool) ++ (networks.toList.map (·, .tree) ++ (asns.toList.map (·, .list .as) ++
      (countries.toList.map (·, .list .country) ++ (key1.toList.map (·, .block) ++ key2.toList.map (·, .block))))))
  | .pyDb db path => db.toList.map (·, .db) ++ path.toList.map (·, .block)
  | .pyObj => []

/-- The objects an object refers to -/
def owns (o : Obj) : List Nat := (pointers o).map (·.1)

/-- The counter of an object; 0: it was released, or never created. -/
def refs (s : OState) (i : Nat) : Nat :=
  match s.objs[i]? with
  | some (_, k) => k
  | none => 0

/-- An object that has not been released -/
def Alive (s : OState) (i : Nat) : Prop := 0 < refs s i

/-- What the fields of an object hold (or held, when it was released) -/
def contents (s : OState) (i : Nat) : Option Obj := s.objs[i]?.map (·.1)

/-- The type of an object -/
def kindOf (s : OState) (i : Nat) : Option OKind := (contents s i).map Obj.kind

/-- What can be reached from some references by following pointers -/
inductive InUse (s : OState) (roots : List Nat) : Nat → Prop
  | root {i : Nat} : i ∈ roots → InUse s roots i
  | field {i j : Nat} {o : Obj} : InUse s roots i → contents s i = some o → j ∈ owns o → InUse s roots j

/-- The objects, and the references the program holds. -/
structure OWorld where
  state : OState
  held : List Nat

/-- At first there is nothing; the environment may do anything. -/
def oworld (fails odd : List Bool) : OWorld := ⟨⟨[], fails, odd⟩, []⟩

/-- The calls of the program: creating, referencing (`take`) and releasing (`drop`) objects, and the functions of the library
    and its Python module that work with them. -/
inductive OOp
  | newCtx
  | take (i : Nat)
  | drop (k : OKind) (i : Nat)
  | newCountry (ctx : Nat) (code : CStr)
  | newAs (ctx number : Nat)
  | newNetwork (ctx : Nat)
  | setName (k : Item) (i : Nat)
  | newList (k : Item) (ctx : Nat)
  | append (k : Item) (l x : Nat)
  | clear (k : Item) (l : Nat)
  | get (k : Item) (l n : Nat)
  | contains (k : Item) (l key : Nat)
  | sort (k : Item) (l : Nat)
  | openDb (ctx : Nat) (ases : List (Nat × Bool)) (countries : List (CStr × Bool))
  | getAs (d number : Nat)
  | getCountry (d : Nat) (code : CStr)
  | lookup (d : Nat) (leaf : Option Bool)
  | newEnum (d : Nat) (mode : EnumMode)
  | setString (e : Nat)
  | setCountries (e l : Nat)
  | setAsns (e l : Nat)
  | getCountries (e : Nat)
  | getAsns (e : Nat)
  | nextAs (e : Nat) (matched : Nat → Bool)
  | nextCountry (e : Nat)
  | newWriter (ctx : Nat) (file1 file2 : Bool)
  | setText (w len : Nat) (found : Bool)
  | addAs (w number : Nat)
  | addCountry (w : Nat) (code : CStr)
  | pyOpen (ctx : Nat) (ases : List (Nat × Bool)) (countries : List (CStr × Bool))
  | pyLookup (o : Nat) (leaf : Option Bool)
  | pySearch (ctx o : Nat) (codes : Option (List (Option CStr))) (asns : Option (List (Option Nat)))
  | pyWriter (ctx pyNone : Nat) (key1 key2 : Option Nat)

/-- The `_unref` function for objects of a type.  The program has no pointers to blocks, pools, trees and nodes. -/
def unrefOf : OKind → Nat → OM Unit
  | .ctx => ctxUnref
  | .item k => itemUnref k
  | .list k => listUnref k
  | .db => dbUnref
  | .enum => enumUnref
  | .writer => writerUnref
  | .pyDb => pyDbUnref
  | .pyObj => pyUnref
  | .block => fun _ => throw .kind
  | .pool => fun _ => throw .kind
  | .node => fun _ => throw .kind
  | .tree => fun _ => throw .kind

/-- The references the program gets from a call. -/
def perform : OOp → OM (List Nat)
  | .newCtx => do let r ← ctxNew; pure r.toList
  | .take i => do incr i; pure [i]
  | .drop k i => do unrefOf k i; pure []
  | .newCountry ctx code => do let r ← countryNew ctx code; pure r.toList
  | .newAs ctx number => do let r ← itemNew .as ctx number; pure r.toList
  | .newNetwork ctx => do let r ← itemNew .network ctx 0; pure r.toList
  | .setName k i => do let _ ← itemSetName k i; pure []
  | .newList k ctx => do let r ← listNew k ctx; pure r.toList
  | .append k l x => do let _ ← listAppend k l x; pure []
  | .clear k l => do listClear k l; pure []
  | .get k l n => do let r ← listGet k l n; pure r.toList
  | .contains k l key => do let _ ← listContainsKey k l key; pure []
  | .sort k l => do listSort k l; pure []
  | .openDb ctx ases countries => do let r ← dbNew ctx ases countries; pure r.toList
  | .getAs d number => do let r ← dbGetAs d number; pure r.toList
  | .getCountry d code => do let r ← dbGetCountry d code; pure r.toList
  | .lookup d leaf => do let r ← dbLookup d leaf; pure r.toList
  | .newEnum d mode => do let r ← enumNew d mode; pure r.toList
  | .setString e => do enumSetString e; pure []
  | .setCountries e l => do enumSetCountries e l; pure []
  | .setAsns e l => do enumSetAsns e l; pure []
  | .getCountries e => do let r ← enumGetList .country e; pure r.toList
  | .getAsns e => do let r ← enumGetList .as e; pure r.toList
  | .nextAs e matched => do let r ← enumNextAs e matched; pure r.toList
  | .nextCountry e => do let r ← enumNextCountry e; pure r.toList
  | .newWriter ctx file1 file2 => do let r ← writerNew ctx file1 file2; pure r.toList
  | .setText w len found => do writerSetText w len found; pure []
  | .addAs w number => do let r ← writerAddAs w number; pure r.1.toList
  | .addCountry w code => do let r ← writerAddCountry w code; pure r.1.toList
  | .pyOpen ctx ases countries => do let r ← pyDbNew ctx ases countries; pure r.toList
  | .pyLookup o leaf => do let r ← Loc.Objects.pyLookup o leaf; pure r.toList
  | .pySearch ctx o codes asns => do let r ← pySearchNetworks ctx o codes asns; pure r.toList
  | .pyWriter ctx pyNone key1 key2 => do let r ← pyWriterInit ctx pyNone key1 key2; pure r.toList

/-- The references of the program after a call that gave it some: `drop` gives one back. -/
def heldAfter (held gained : List Nat) : OOp → List Nat
  | .drop _ i => gained ++ held.erase i
  | _ => gained ++ held

def ostep (w : OWorld) (op : OOp) : Except OFault OWorld :=
  match perform op w.state with
  | .ok (gained, s) => .ok ⟨s, heldAfter w.held gained op⟩
  | .error f => .error f

def orun : OWorld → List OOp → Except OFault OWorld
  | w, [] => .ok w
  | w, op :: ops =>
    match ostep w op with
    | .ok w => orun w ops
    | .error f => .error f

/-- The program holds a reference to an object of the right type. -/
def Holds (w : OWorld) (k : OKind) (i : Nat) : Prop := i ∈ w.held ∧ kindOf w.state i = some k

/-- Proper conduct: programs use only objects they hold references to, with functions for their type.  Networks are not put
    on lists.  `None` as a key: see `python_none_violated`. -/
def OProper (w : OWorld) : OOp → Prop
  | .newCtx => True
  | .take i => i ∈ w.held
  | .drop k i => Holds w k i
  | .newCountry ctx _ => Holds w .ctx ctx
  | .newAs ctx _ => Holds w .ctx ctx
  | .newNetwork ctx => Holds w .ctx ctx
  | .setName k i => Holds w (.item k) i
  | .newList _ ctx => Holds w .ctx ctx
  | .append k l x => k ≠ .network ∧ Holds w (.list k) l ∧ Holds w (.item k) x
  | .clear k l => Holds w (.list k) l
  | .get k l _ => Holds w (.list k) l
  | .contains k l _ => Holds w (.list k) l
  | .sort k l => Holds w (.list k) l
  | .openDb ctx _ _ => Holds w .ctx ctx
  | .getAs d _ => Holds w .db d
  | .getCountry d _ => Holds w .db d
  | .lookup d _ => Holds w .db d
  | .newEnum d _ => Holds w .db d
  | .setString e => Holds w .enum e
  | .setCountries e l => Holds w .enum e ∧ Holds w (.list .country) l
  | .setAsns e l => Holds w .enum e ∧ Holds w (.list .as) l
  | .getCountries e => Holds w .enum e
  | .getAsns e => Holds w .enum e
  | .nextAs e _ => Holds w .enum e
  | .nextCountry e => Holds w .enum e
  | .newWriter ctx _ _ => Holds w .ctx ctx
  | .setText x _ _ => Holds w .writer x
  | .addAs x _ => Holds w .writer x
  | .addCountry x _ => Holds w .writer x
  | .pyOpen ctx _ _ => Holds w .ctx ctx
  | .pyLookup o _ => Holds w .pyDb o
  | .pySearch ctx o _ _ => Holds w .ctx ctx ∧ Holds w .pyDb o
  | .pyWriter ctx pyNone key1 key2 => Holds w .ctx ctx ∧ key1 ≠ some pyNone ∧ key2 ≠ some pyNone

/-- The calls known to leak: setting the string of an enumerator that has one, and searches from Python that fail. -/
def Tidy (w : OWorld) : OOp → Prop
  | .setString e => ∀ ctx db mode string countries asns visited stack i j,
      contents w.state e = some (.enum ctx db mode string countries asns visited stack i j) → string = none
  | .pySearch ctx o codes asns => ∀ s, perform (.pySearch ctx o codes asns) w.state ≠ .ok ([], s)
  | _ => True

/-- A rule is obeyed throughout a history. -/
def OObeys (rule : OWorld → OOp → Prop) : OWorld → List OOp → Prop
  | _, [] => True
  | w, op :: ops => rule w op ∧ ∀ w', ostep w op = .ok w' → OObeys rule w' ops

/-- The objects whose fields a call may change -/
def Changes (s : OState) : OOp → Nat → Prop
  | .setName _ x, i => i = x
  | .append _ l _, i => i = l
  | .clear _ l, i => i = l
  | .sort _ l, i => i = l
  | .setString e, i => i = e
  | .setCountries e _, i => i = e
  | .setAsns e _, i => i = e
  | .nextAs e _, i => i = e
  | .nextCountry e, i => i = e
  | .setText w _ _, i => ∃ c n a cs k1 k2, contents s w = some (.writer c (some i) n a cs k1 k2)
  | .addAs w _, i => ∃ c p n cs k1 k2, contents s w = some (.writer c p n (some i) cs k1 k2)
  | .addCountry w _, i => ∃ c p n a k1 k2, contents s w = some (.writer c p n a (some i) k1 k2)
  | _, _ => False

end Loc.Spec
