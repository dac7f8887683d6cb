import Verif.Model.Object

/-!
Model of private names and private elements (`/repo/src/lib/rjs_private_name_opt.c`).

Private elements live in the same table and the same list as the ordinary properties that are not
array elements (`o->prop_hash`, `o->prop_list`, include/rjs_object.h:70-80); the keys are pointers to
strings, symbols or private names.  The table is modelled as a list of entries in the order of
`prop_list`; what the hash table finds is the subject of C02.  Of the ordinary properties only their
values are modelled (C30, C55 have the rest).  Pointers to private names are numbers; a new private name
has a number not in use.
-/
namespace Verif.Priv
open Obj (Val)

/-- The thing `he.key` points to (rjs_object.c:1209-1229 tells them apart by `gt->ops->type`). -/
inductive Key
  | str (n : Nat)
  | sym (n : Nat)
  | priv (p : Nat)
  deriving DecidableEq

/-- `RJS_Property` (include/rjs_object.h:35-60): attributes, and value or getter and setter. -/
structure Node where
  writable : Bool := false
  accessor : Bool := false
  method : Bool := false
  value : Val := .undef
  get : Val := .undef
  set : Val := .undef
  deriving DecidableEq

/-- The entries of `prop_list`. -/
abbrev Table := List (Key × Node)

/-- `RJS_PrivateEnv` (include/rjs_private_name.h), with the environments outside of it: identifiers
with the addresses of their private names. -/
abbrev Env := List (List (Nat × Nat))

structure St where
  /-- The next address for a private name. -/
  next : Nat
  /-- The environments made so far; functions keep pointers to them. -/
  envs : List Env
  objs : Nat → Table

def upd {α : Type} (f : Nat → α) (i : Nat) (x : α) : Nat → α := fun j => if j = i then x else f j

/-- `private_name_add` (rjs_private_name_opt.c:104-134) for the identifiers of one class
(`rjs_private_env_push`, 143-177). -/
def addNames (next : Nat) (have_ : List (Nat × Nat)) : List Nat → Nat × List (Nat × Nat)
  | [] => (next, have_)
  | i :: is =>
    match have_.lookup i with
    | some _ => addNames next have_ is
    | none => addNames (next + 1) (have_ ++ [(i, next)]) is

/-- `rjs_private_name_lookup` (rjs_private_name_opt.c:203-228). -/
def lookup (i : Nat) : Env → Option Nat
  | [] => none
  | e :: es =>
    match e.lookup i with
    | some p => some p
    | none => lookup i es

/-- `rjs_hash_lookup` in `prop_hash`: `private_element_find` (rjs_private_name_opt.c:230-250) and
`prop_get` (rjs_object.c:262-280). -/
def find (t : Table) (k : Key) : Option Node := t.lookup k

/-- The entry of `k` changed in place. -/
def replace (t : Table) (k : Key) (n : Node) : Table :=
  t.map fun e => if e.1 = k then (k, n) else e

/-- `private_element_add` (rjs_private_name_opt.c:252-264); also the insertion of an ordinary property
(rjs_object.c:400-410). -/
def append (t : Table) (k : Key) (n : Node) : Table := t ++ [(k, n)]

/-- `prop_delete` for a name (rjs_object.c:455-470). -/
def remove (t : Table) (k : Key) : Table := t.filter fun e => e.1 ≠ k

/-- What the operations are. `env` is the number of the running private environment. -/
inductive Op
  /-- A class definition is evaluated: `rjs_private_env_push`. -/
  | newEnv (outer : Option Nat) (ids : List Nat)
  | get (env o i : Nat)
  | set (env o i : Nat) (v : Val)
  | has (env o i : Nat)
  | addField (env o i : Nat) (v : Val)
  | addMethod (env o i : Nat) (v : Val)
  | addGetter (env o i : Nat) (v : Val)
  | addSetter (env o i : Nat) (v : Val)
  | putProp (o : Nat) (sym : Bool) (n : Nat) (v : Val)
  | getProp (o : Nat) (sym : Bool) (n : Nat)
  | deleteProp (o : Nat) (sym : Bool) (n : Nat)
  | ownKeys (o : Nat)

inductive Out
  | unit
  | value (v : Val)
  | bool (b : Bool)
  /-- The getter or setter is called. -/
  | call (f : Val)
  | typeError
  | keys (ks : List (Bool × Nat))
  /-- An assertion fails: the name is not in the environment (`assert(rjs_value_is_private_name)`, 240). -/
  | fault
  deriving DecidableEq

def propKey (sym : Bool) (n : Nat) : Key := if sym then .sym n else .str n

/-- `rjs_private_get` (rjs_private_name_opt.c:275-313). -/
def privGet (t : Table) (p : Nat) : Out :=
  match find t (.priv p) with
  | none => .typeError
  | some n =>
    if !n.accessor then .value n.value
    else if n.get = .undef then .typeError
    else .call n.get

/-- `rjs_private_set` (rjs_private_name_opt.c:324-364). -/
def privSet (t : Table) (p : Nat) (v : Val) : Table × Out :=
  match find t (.priv p) with
  | none => (t, .typeError)
  | some n =>
    if !(n.accessor || n.method) then (replace t (.priv p) { n with value := v }, .unit)
    else if n.method then (t, .typeError)
    else if n.set = .undef then (t, .typeError)
    else (t, .call n.set)

/-- `rjs_private_field_add` (rjs_private_name_opt.c:375-394). -/
def fieldAdd (t : Table) (p : Nat) (v : Val) : Table × Out :=
  match find t (.priv p) with
  | some _ => (t, .typeError)
  | none => (append t (.priv p) { writable := true, value := v }, .unit)

/-- `rjs_private_method_add` (rjs_private_name_opt.c:405-424). -/
def methodAdd (t : Table) (p : Nat) (v : Val) : Table × Out :=
  match find t (.priv p) with
  | some _ => (t, .typeError)
  | none => (append t (.priv p) { method := true, value := v }, .unit)

/-- An argument that is not `NULL` and not `undefined` (rjs_private_name_opt.c:450-466). -/
def given : Option Val → Option Val
  | none => none
  | some .undef => none
  | some v => some v

/-- `rjs_private_accessor_add` (rjs_private_name_opt.c:436-483); `none` for `NULL`. -/
def accessorAdd (t : Table) (p : Nat) (get set : Option Val) : Table × Out :=
  match find t (.priv p) with
  | some n =>
    if !n.accessor then (t, .typeError)
    else if n.get ≠ .undef ∧ (given get).isSome then (t, .typeError)
    else if n.set ≠ .undef ∧ (given set).isSome then (t, .typeError)
    else (replace t (.priv p) { n with get := (given get).getD n.get, set := (given set).getD n.set }, .unit)
  | none =>
    (append t (.priv p) { accessor := true, get := (given get).getD .undef, set := (given set).getD .undef }, .unit)

/-- `rjs_property_key_list_add_own_keys` (rjs_object.c:1208-1229): strings, then symbols. -/
def ownKeys (t : Table) : List (Bool × Nat) :=
  (t.filterMap fun e => match e.1 with | .str n => some (false, n) | _ => none) ++
  (t.filterMap fun e => match e.1 with | .sym n => some (true, n) | _ => none)

/-- The private name of `i` in the environment, given to `f`. -/
def resolve (s : St) (env i : Nat) (f : Nat → St × Out) : St × Out :=
  match lookup i (s.envs.getD env []) with
  | none => (s, .fault)
  | some p => f p

/-- The table of `o` is changed. -/
def setTable (s : St) (o : Nat) (x : Table × Out) : St × Out := ({ s with objs := upd s.objs o x.1 }, x.2)

def step (s : St) : Op → St × Out
  | .newEnv outer ids =>
    let out := match outer with | some e => s.envs.getD e [] | none => []
    let (next, names) := addNames s.next [] ids
    ({ s with next := next, envs := s.envs ++ [names :: out] }, .unit)
  | .get env o i => resolve s env i fun p => (s, privGet (s.objs o) p)
  | .set env o i v => resolve s env i fun p => setTable s o (privSet (s.objs o) p v)
  -- `rjs_private_element_find` (494-515)
  | .has env o i => resolve s env i fun p => (s, .bool (find (s.objs o) (.priv p)).isSome)
  | .addField env o i v => resolve s env i fun p => setTable s o (fieldAdd (s.objs o) p v)
  | .addMethod env o i v => resolve s env i fun p => setTable s o (methodAdd (s.objs o) p v)
  | .addGetter env o i v => resolve s env i fun p => setTable s o (accessorAdd (s.objs o) p (some v) none)
  | .addSetter env o i v => resolve s env i fun p => setTable s o (accessorAdd (s.objs o) p none (some v))
  | .putProp o sym n v =>
    match find (s.objs o) (propKey sym n) with
    | some x => setTable s o (replace (s.objs o) (propKey sym n) { x with value := v }, .unit)
    | none => setTable s o (append (s.objs o) (propKey sym n) { writable := true, value := v }, .unit)
  | .getProp o sym n =>
    match find (s.objs o) (propKey sym n) with
    | some x => (s, .value x.value)
    | none => (s, .value .undef)
  | .deleteProp o sym n => setTable s o (remove (s.objs o) (propKey sym n), .unit)
  | .ownKeys o => (s, .keys (ownKeys (s.objs o)))

def run (s : St) : List Op → St × List Out
  | [] => (s, [])
  | op :: ops => ((run (step s op).1 ops).1, (step s op).2 :: (run (step s op).1 ops).2)

def init : St := { next := 0, envs := [], objs := fun _ => [] }

end Verif.Priv
