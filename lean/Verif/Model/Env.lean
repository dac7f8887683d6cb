/-
Environments, bindings and the binding cache.

Models `src/lib/rjs_environment.c`, `rjs_decl_env.c`, `rjs_object_env.c`, `rjs_global_env.c`,
the binding part of `rjs_operation.c` (2066-2205), the declaration part of `rjs_eval_opt.c`
(151-216) and the reuse of a function environment by a tail call (`rjs_native_stack.c` 1151-1189),
with `ENABLE_BINDING_CACHE` on, as in the default configuration.

Simplifications, all stated at the definition concerned: names and values are opaque numbers;
the properties of the object of a `with` or global environment are ordinary configurable and
writable data properties without prototype chain, accessors, proxies and `@@unscopables`; import
bindings of modules are not modelled; the hash table of an environment is a list (C02 is about
the hash table itself); environments are never collected (C07 is about the collector).
-/

namespace Verif.Env

/-- A name: an interned string (rjs_decl_env.c:160-165 turns it into a property key first). -/
abbrev Name := Nat
/-- A value, opaque; 0 stands for `undefined`. -/
abbrev Val := Nat

/-- `undefined`. -/
def undef : Val := 0

/-- The index meaning "not cached" (include/ratjs/rjs_environment.h:56-57). -/
def noIdx : Nat := 65535

/-- What goes wrong below the language: a failed `assert`, an element of `binding_vec` or
`outer_stack` beyond its end, a freed binding, a null or dangling environment, an environment
taken for a function environment that is none, the fuel of the walk. -/
inductive Fault where
  | assert | oob | freed | null | cast | fuel
  deriving DecidableEq, Repr

/-- The kind of an environment (`ops->type`): a declarative environment, a function environment,
the object environment of a `with` statement, the global environment. -/
inductive Kind where
  | decl | func | withObj | global
  deriving DecidableEq, Repr

/-- A binding: `RJS_ValueBinding` (include/rjs_decl_env.h:51-63). -/
structure Cell where
  deletable : Bool
  immutable : Bool
  strict : Bool
  initialized : Bool
  value : Val
  idx : Nat
  deriving DecidableEq, Repr

/-- An environment: `RJS_Environment` (include/rjs_environment.h:56-67) with the fields of
`RJS_DeclEnv` (include/rjs_decl_env.h:73-79); `obj` are the properties of the object of a `with`
environment, or of the global object for the global environment (whose `object_rec` is not an
environment of the chain, rjs_global_env.c:264-274). -/
structure Env where
  kind : Kind
  outer : Option Nat
  depth : Nat
  cache : Bool
  hash : List (Name × Nat)
  vec : List Nat
  stack : Option (List Nat)
  backRefs : List Nat
  obj : List (Name × Val)
  deriving DecidableEq, Repr

/-- A binding name: `RJS_BindingName` (include/ratjs/rjs_types.h:536-543).  There is one for
each name mentioned in each scope of a script. -/
structure BName where
  name : Name
  envIdx : Nat
  bindIdx : Nat
  deriving DecidableEq, Repr

/-- A reference: the result of `binding_resolve`, an environment or nothing, together with the
binding name (rjs_bc_call.c:884-891).  The interpreter keeps the environment in a register and
hands it to `binding_get`, `binding_set` and so on later. -/
structure Ref where
  name : Nat
  env : Option Nat
  deriving DecidableEq, Repr

/-- The state: environments, bindings (`none` when freed), binding names and references. -/
structure State where
  envs : List Env
  cells : List (Option Cell)
  names : List BName
  refs : List Ref
  deriving DecidableEq, Repr

/-- What an operation gives back: nothing, a value, a truth value, a ReferenceError or a
TypeError, or the environment found. -/
inductive Out where
  | done | val (v : Val) | bool (b : Bool) | refErr | typeErr | env (e : Option Nat)
  deriving DecidableEq, Repr

/-- Environment `e` (a dangling number is a null pointer). -/
def State.env (s : State) (e : Nat) : Except Fault Env :=
  match s.envs[e]? with
  | some env => .ok env
  | none => .error .null

/-- Binding name `b`. -/
def State.bname (s : State) (b : Nat) : Except Fault BName :=
  match s.names[b]? with
  | some n => .ok n
  | none => .error .null

/-- The binding at address `c`: a freed one is a fault. -/
def State.cell (s : State) (c : Nat) : Except Fault Cell :=
  match s.cells[c]? with
  | some (some x) => .ok x
  | some none => .error .freed
  | none => .error .null

/-- Store binding `x` at address `c`. -/
def State.setCell (s : State) (c : Nat) (x : Option Cell) : State :=
  { s with cells := s.cells.set c x }

/-- Store environment `x` at address `e`. -/
def State.setEnv (s : State) (e : Nat) (x : Env) : State :=
  { s with envs := s.envs.set e x }

/-- `rjs_hash_lookup` in the table of an environment. -/
def find {α : Type} (l : List (Name × α)) (n : Name) : Option α :=
  match l with
  | [] => none
  | p :: l => if p.1 = n then some p.2 else find l n

/-- `rjs_hash_remove` of the entry of `n`. -/
def erase {α : Type} (l : List (Name × α)) (n : Name) : List (Name × α) :=
  l.filter fun p => p.1 != n

/-- Define or overwrite property `n` of an object. -/
def put (l : List (Name × Val)) (n : Name) (v : Val) : List (Name × Val) :=
  match l with
  | [] => [(n, v)]
  | p :: l => if p.1 = n then (n, v) :: l else p :: put l n v

/-- `rjs_decl_env_lookup_binding` (rjs_decl_env.c:443-472).  `slot` says whether the caller asks
for the position in the hash table (`pe`).  The cached index is used without any check of the
name or of the length of the vector. -/
def lookup (s : State) (e b : Nat) (slot : Bool) : Except Fault (State × Option Nat) := do
  let env ← s.env e
  let bn ← s.bname b
  if env.cache = true ∧ slot = false ∧ bn.bindIdx ≠ noIdx then
    match env.vec[bn.bindIdx]? with
    | some c => .ok (s, some c)
    | none => .error .oob
  else
    match find env.hash bn.name with
    | none => .ok (s, none)
    | some c =>
      if env.cache = true ∧ bn.envIdx ≠ noIdx then do
        let x ← s.cell c
        .ok ({ s with names := s.names.set b { bn with bindIdx := x.idx } }, some c)
      else .ok (s, some c)

/-- `rjs_decl_env_add_binding` (rjs_decl_env.c:482-498) after `RJS_NEW`; the index is a 16 bit
number, and is left alone when the cache is off. -/
def addBinding (s : State) (e b : Nat) (x : Cell) : Except Fault State := do
  let env ← s.env e
  let bn ← s.bname b
  let c := s.cells.length
  let x := if env.cache then { x with idx := env.vec.length % 65536 } else x
  let vec := if env.cache then env.vec ++ [c] else env.vec
  .ok { s with
    cells := s.cells ++ [some x]
    envs := s.envs.set e { env with hash := env.hash ++ [(bn.name, c)], vec := vec } }

/-- `rjs_decl_env_op_create_mutable_binding` (rjs_decl_env.c:192-210) and
`rjs_decl_env_op_create_immutable_binding` (221-242). -/
def declCreate (s : State) (e b : Nat) (imm strict del : Bool) : Except Fault State := do
  let (s, r) ← lookup s e b true
  match r with
  | some _ => .error .assert
  | none =>
    addBinding s e b
      { deletable := !imm && del, immutable := imm, strict := imm && strict
        initialized := false, value := undef, idx := 0 }

/-- `rjs_decl_env_op_initialize_binding` (rjs_decl_env.c:253-268). -/
def declInit (s : State) (e b : Nat) (v : Val) : Except Fault (State × Out) := do
  let (s, r) ← lookup s e b false
  match r with
  | none => .error .assert
  | some c =>
    let x ← s.cell c
    if x.initialized then .error .assert
    else .ok (s.setCell c (some { x with value := v, initialized := true }), .done)

/-- `rjs_decl_env_op_set_mutable_binding` (rjs_decl_env.c:280-313). -/
def declSet (s : State) (e b : Nat) (v : Val) (strict : Bool) : Except Fault (State × Out) := do
  let (s, r) ← lookup s e b false
  match r with
  | none =>
    if strict then .ok (s, .refErr)
    else do
      let s ← declCreate s e b false false true
      declInit s e b v
  | some c =>
    let x ← s.cell c
    if !x.initialized then .ok (s, .refErr)
    else if x.immutable then
      if x.strict || strict then .ok (s, .typeErr) else .ok (s, .done)
    else .ok (s.setCell c (some { x with value := v }), .done)

/-- `rjs_decl_env_op_get_binding_value` (rjs_decl_env.c:326-341). -/
def declGet (s : State) (e b : Nat) : Except Fault (State × Out) := do
  let (s, r) ← lookup s e b false
  match r with
  | none => .error .assert
  | some c =>
    let x ← s.cell c
    if !x.initialized then .ok (s, .refErr) else .ok (s, .val x.value)

/-- `rjs_decl_env_op_delete_binding` (rjs_decl_env.c:351-370): the entry is taken out of the hash
table and the binding freed; the vector keeps its address. -/
def declDelete (s : State) (e b : Nat) : Except Fault (State × Out) := do
  let (s, r) ← lookup s e b true
  match r with
  | none => .error .assert
  | some c =>
    let x ← s.cell c
    let env ← s.env e
    let bn ← s.bname b
    if !x.deletable then .ok (s, .bool false)
    else .ok ((s.setEnv e { env with hash := erase env.hash bn.name }).setCell c none, .bool true)

/-- `rjs_decl_env_op_has_binding` (rjs_decl_env.c:175-181). -/
def declHas (s : State) (e b : Nat) : Except Fault (State × Bool) := do
  let (s, r) ← lookup s e b false
  .ok (s, r.isSome)

/-- `object_env_op_has_binding` (rjs_object_env.c:52-90), without `@@unscopables`. -/
def objHas (s : State) (e b : Nat) : Except Fault Bool := do
  let env ← s.env e
  let bn ← s.bname b
  .ok (find env.obj bn.name).isSome

/-- `object_env_op_set_mutable_binding` (rjs_object_env.c:136-158). -/
def objSet (s : State) (e b : Nat) (v : Val) (strict : Bool) : Except Fault (State × Out) := do
  let env ← s.env e
  let bn ← s.bname b
  if (find env.obj bn.name).isNone ∧ strict = true then .ok (s, .refErr)
  else .ok (s.setEnv e { env with obj := put env.obj bn.name v }, .done)

/-- `object_env_op_get_binding_value` (rjs_object_env.c:161-189). -/
def objGet (s : State) (e b : Nat) (strict : Bool) : Except Fault (State × Out) := do
  let env ← s.env e
  let bn ← s.bname b
  match find env.obj bn.name with
  | some v => .ok (s, .val v)
  | none => .ok (s, if strict then .refErr else .val undef)

/-- `object_env_op_delete_binding` (rjs_object_env.c:192-204): deleting a configurable or absent
property answers true. -/
def objDelete (s : State) (e b : Nat) : Except Fault (State × Out) := do
  let env ← s.env e
  let bn ← s.bname b
  .ok (s.setEnv e { env with obj := erase env.obj bn.name }, .bool true)

/-- `rjs_env_has_binding`: by the kind of the environment; the global one asks its declarative
part and then its object (rjs_global_env.c:66-76). -/
def envHas (s : State) (e b : Nat) : Except Fault (State × Bool) := do
  let env ← s.env e
  match env.kind with
  | .withObj =>
    let r ← objHas s e b
    .ok (s, r)
  | .global =>
    let (s, r) ← declHas s e b
    if r then .ok (s, true)
    else
      let r ← objHas s e b
      .ok (s, r)
  | _ => declHas s e b

/-- `rjs_env_create_mutable_binding` and `rjs_env_create_immutable_binding`: the global
environment refuses a name it has already (rjs_global_env.c:79-102), a `with` environment defines
a property or fails its assertion (rjs_object_env.c:93-126). -/
def envCreate (s : State) (e b : Nat) (imm strict del : Bool) : Except Fault (State × Out) := do
  let env ← s.env e
  match env.kind with
  | .withObj =>
    let bn ← s.bname b
    if imm then .error .assert
    else .ok (s.setEnv e { env with obj := put env.obj bn.name undef }, .done)
  | .global =>
    let (s, r) ← declHas s e b
    if r then .ok (s, .refErr)
    else
      let s ← declCreate s e b imm strict del
      .ok (s, .done)
  | _ =>
    let s ← declCreate s e b imm strict del
    .ok (s, .done)

/-- `rjs_env_initialize_binding` (rjs_global_env.c:105-115, rjs_object_env.c:129-133). -/
def envInit (s : State) (e b : Nat) (v : Val) : Except Fault (State × Out) := do
  let env ← s.env e
  match env.kind with
  | .withObj => objSet s e b v false
  | .global =>
    let (s, r) ← declHas s e b
    if r then declInit s e b v else objSet s e b v false
  | _ => declInit s e b v

/-- `rjs_env_set_mutable_binding` (rjs_global_env.c:118-128). -/
def envSet (s : State) (e b : Nat) (v : Val) (strict : Bool) : Except Fault (State × Out) := do
  let env ← s.env e
  match env.kind with
  | .withObj => objSet s e b v strict
  | .global =>
    let (s, r) ← declHas s e b
    if r then declSet s e b v strict else objSet s e b v strict
  | _ => declSet s e b v strict

/-- `rjs_env_get_binding_value` (rjs_global_env.c:131-141). -/
def envGet (s : State) (e b : Nat) (strict : Bool) : Except Fault (State × Out) := do
  let env ← s.env e
  match env.kind with
  | .withObj => objGet s e b strict
  | .global =>
    let (s, r) ← declHas s e b
    if r then declGet s e b else objGet s e b strict
  | _ => declGet s e b

/-- `rjs_env_delete_binding`; the global environment answers false for a name it does not have
(rjs_global_env.c:144-182). -/
def envDelete (s : State) (e b : Nat) : Except Fault (State × Out) := do
  let env ← s.env e
  match env.kind with
  | .withObj => objDelete s e b
  | .global =>
    let (s, r) ← declHas s e b
    if r then declDelete s e b
    else
      let r ← objHas s e b
      if r then objDelete s e b else .ok (s, .bool false)
  | _ => declDelete s e b

/-- `rjs_decl_env_new`, `rjs_function_env_new` and `rjs_object_env_new` through `rjs_env_init`
(rjs_environment.c:35-48, rjs_decl_env.c:69-101). -/
def newEnv (s : State) (kind : Kind) (outer : Option Nat) (obj : List (Name × Val)) :
    Except Fault State := do
  let depth ← match outer with
    | none => .ok 0
    | some o => do
      let env ← s.env o
      .ok (env.depth + 1)
  .ok { s with
    envs := s.envs ++
      [{ kind := kind, outer := outer, depth := depth, cache := true, hash := [], vec := [],
         stack := none, backRefs := [], obj := obj }] }

/-- The `n` environments around `e`, in order: the loop of `rjs_env_build_outer_stack`
(rjs_environment.c:98-112). -/
def outers (s : State) : Nat → Option Nat → Except Fault (List Nat)
  | 0, _ => .ok []
  | _ + 1, none => .error .null
  | n + 1, some o => do
    let env ← s.env o
    let l ← outers s n env.outer
    .ok (o :: l)

/-- Append back references to `e` at each of the environments (rjs_environment.c:106-107). -/
def addBackRefs (envs : List Env) (e : Nat) : List Nat → List Env
  | [] => envs
  | o :: l =>
    addBackRefs
      (match envs[o]? with
        | some env => envs.set o { env with backRefs := env.backRefs ++ [e] }
        | none => envs) e l

/-- `if (!env->outer_stack) rjs_env_build_outer_stack (rt, env)` (rjs_operation.c:2078-2079,
2115-2116, rjs_environment.c:89-114): nothing is built at depth 0. -/
def buildStack (s : State) (e : Nat) : Except Fault State := do
  let env ← s.env e
  match env.stack with
  | some _ => .ok s
  | none =>
    if env.depth = 0 then .ok s
    else
      let l ← outers s env.depth env.outer
      .ok { s with envs := addBackRefs (s.envs.set e { env with stack := some l }) e l }

/-- `rjs_env_disable_cache` (rjs_environment.c:120-132): the environment itself and those that
have built a stack containing it. -/
def disableCache (s : State) (e : Nat) : Except Fault State := do
  let env ← s.env e
  .ok { s with
    envs := (env.backRefs).foldl
      (fun l r => match l[r]? with
        | some x => l.set r { x with cache := false }
        | none => l)
      (s.envs.set e { env with cache := false }) }

/-- The walk of `rjs_resolve_binding` (rjs_operation.c:2093-2106): the environment found and
whether a `with` object was passed. -/
def walk : Nat → State → Nat → Option Nat → Bool → Except Fault (State × Option Nat × Bool)
  | 0, _, _, _, _ => .error .fuel
  | _ + 1, s, _, none, nc => .ok (s, none, nc)
  | n + 1, s, b, some e, nc => do
    let env ← s.env e
    let nc := if env.kind = .withObj then false else nc
    let (s, r) ← envHas s e b
    if r then .ok (s, some e, nc) else walk n s b env.outer nc

/-- `rjs_resolve_binding` with `e` the running lexical environment (rjs_operation.c:2065-2126). -/
def resolve (s : State) (e b : Nat) : Except Fault (State × Option Nat) := do
  let env ← s.env e
  let bn ← s.bname b
  if bn.envIdx ≠ noIdx ∧ env.cache = true then
    if bn.envIdx = 0 then .ok (s, some e)
    else
      let s ← buildStack s e
      let env ← s.env e
      match env.stack with
      | none => .error .null
      | some l =>
        match l[bn.envIdx - 1]? with
        | some f => .ok (s, some f)
        | none => .error .oob
  else
    let (s, r, nc) ← walk (s.envs.length + 1) s b (some e) env.cache
    match r with
    | none => .ok (s, none)
    | some f =>
      if nc then
        let fenv ← s.env f
        let bn ← s.bname b
        let s := { s with names := s.names.set b { bn with envIdx := (env.depth - fenv.depth) % 65536 } }
        let s ← buildStack s e
        .ok (s, some f)
      else .ok (s, some f)

/-- Declare the bindings of a scope, in order: the loop of `rjs_script_binding_group_init`
(rjs_script.c:503-516), each as (binding name, immutable, strict). -/
def declareAll (s : State) (e : Nat) : List (Nat × Bool × Bool) → Except Fault State
  | [] => .ok s
  | (b, imm, strict) :: l => do
    let s ← declCreate s e b imm strict false
    declareAll s e l

/-- The operations a running program performs on environments. -/
inductive Op where
  /-- Enter a scope: a declarative or function environment with its bindings
  (rjs_bc_call.c:81-115), or a `with` environment (rjs_bc_call.c:1152) with the properties of its
  object. -/
  | enter (kind : Kind) (outer : Nat) (decls : List (Nat × Bool × Bool)) (obj : List (Name × Val))
  /-- A lexical declaration of a further script in the global environment
  (rjs_script.c:432-448). -/
  | declare (e b : Nat) (imm strict : Bool)
  /-- `binding_resolve` from environment `e` (rjs_bc_call.c:884-891). -/
  | resolve (e b : Nat)
  /-- A reference to a name in a given environment (rjs_script.c:523-529, 573-576, 636-638). -/
  | direct (e b : Nat)
  /-- `binding_init` (rjs_bc_call.c:893-896). -/
  | init (r : Nat) (v : Val)
  /-- `binding_get` (rjs_bc_call.c:903-906). -/
  | get (r : Nat) (strict : Bool)
  /-- `binding_set` (rjs_bc_call.c:898-901). -/
  | set (r : Nat) (v : Val) (strict : Bool)
  /-- `del_binding` (rjs_bc_call.c:733-737). -/
  | delete (r : Nat) (strict : Bool)
  /-- A property of the object of a `with` environment or of the global object is written. -/
  | putProp (e : Nat) (n : Name) (v : Val)
  /-- A property of such an object is deleted. -/
  | delProp (e : Nat) (n : Name)
  /-- A `var` of a direct eval, in the variable environment `e` (rjs_eval_opt.c:184-216). -/
  | evalVar (e b : Nat)
  /-- A function of a direct eval (rjs_eval_opt.c:169-181). -/
  | evalFunc (e b : Nat) (v : Val)
  /-- A tail call of a function to itself: the variable environment `e` is cleared and the
  bindings declared again (rjs_native_stack.c:1151-1189, rjs_function_env.c:236-255). -/
  | tail (e : Nat) (decls : List (Nat × Bool × Bool))
  deriving DecidableEq, Repr

/-- Free the bindings of an environment (rjs_decl_env.c:114-116). -/
def freeAll (cells : List (Option Cell)) : List (Name × Nat) → List (Option Cell)
  | [] => cells
  | (_, c) :: l => freeAll (cells.set c none) l

/-- `rjs_decl_env_clear` (rjs_decl_env.c:420-431): deinit and init again with the same outer
environment.  The back references are unlinked, the stack is freed. -/
def clearEnv (s : State) (e : Nat) : Except Fault State := do
  let env ← s.env e
  .ok { s with
    cells := freeAll s.cells env.hash
    envs := (s.envs.set e
      { env with cache := true, hash := [], vec := [], stack := none, backRefs := [] }).map
        fun x => { x with backRefs := x.backRefs.filter fun r => r != e } }

/-- Reference `r`. -/
def State.ref (s : State) (r : Nat) : Except Fault Ref :=
  match s.refs[r]? with
  | some x => .ok x
  | none => .error .null

/-- Keep the reference found. -/
def State.push (s : State) (b : Nat) (e : Option Nat) : State :=
  { s with refs := s.refs ++ [{ name := b, env := e }] }

/-- The global environment. -/
def globalEnv : Nat := 0

/-- One operation. -/
def step (s : State) : Op → Except Fault (State × Out)
  | .enter kind outer decls obj => do
    let e := s.envs.length
    let s ← newEnv s kind (some outer) obj
    let s ← declareAll s e decls
    .ok (s, .env (some e))
  | .declare e b imm strict => envCreate s e b imm strict false
  | .resolve e b => do
    let (s, r) ← resolve s e b
    .ok (s.push b r, .env r)
  | .direct e b => .ok (s.push b (some e), .env (some e))
  | .init r v => do
    let x ← s.ref r
    match x.env with
    | none => .error .null
    | some e => envInit s e x.name v
  | .get r strict => do
    let x ← s.ref r
    match x.env with
    | none => .ok (s, .refErr)
    | some e => envGet s e x.name strict
  | .set r v strict => do
    let x ← s.ref r
    match x.env with
    | none =>
      if strict then .ok (s, .refErr) else objSet s globalEnv x.name v false
    | some e => envSet s e x.name v strict
  | .delete r strict => do
    let x ← s.ref r
    match x.env with
    | none => .ok (s, if strict then .refErr else .bool true)
    | some e => envDelete s e x.name
  | .putProp e n v => do
    let env ← s.env e
    .ok (s.setEnv e { env with obj := put env.obj n v }, .done)
  | .delProp e n => do
    let env ← s.env e
    .ok (s.setEnv e { env with obj := erase env.obj n }, .done)
  | .evalVar e b => do
    let env ← s.env e
    match env.kind with
    | .global => do
      let r ← objHas s e b
      if r then .ok (s, .done) else objSet s e b undef false
    | _ => do
      let (s, r) ← envHas s e b
      if r then .ok (s, .done)
      else
        let (s, _) ← envCreate s e b false false true
        let (s, _) ← envInit s e b undef
        let s ← disableCache s e
        .ok (s, .done)
  | .evalFunc e b v => do
    let env ← s.env e
    match env.kind with
    | .global => objSet s e b v false
    | _ => do
      let (s, r) ← envHas s e b
      if r then envSet s e b v false
      else
        let (s, _) ← envCreate s e b false false true
        envInit s e b v
  | .tail e decls => do
    let env ← s.env e
    if env.kind ≠ .func then .error .cast
    else
      let s ← clearEnv s e
      let s ← declareAll s e decls
      .ok (s, .done)

/-- A run: the answers in order. -/
def run (s : State) : List Op → Except Fault (State × List Out)
  | [] => .ok (s, [])
  | op :: ops => do
    let (s, o) ← step s op
    let (s, l) ← run s ops
    .ok (s, o :: l)

/-- The start: the global environment alone (rjs_global_env.c:255-277) with the properties of the
global object, and the binding names of the code, nothing cached
(include/ratjs/rjs_environment.h:53-58). -/
def init (names : List Name) (obj : List (Name × Val)) : State :=
  { envs := [{ kind := .global, outer := none, depth := 0, cache := true, hash := [], vec := [],
               stack := none, backRefs := [], obj := obj }]
    cells := []
    names := names.map fun n => { name := n, envIdx := noIdx, bindIdx := noIdx }
    refs := [] }

end Verif.Env
