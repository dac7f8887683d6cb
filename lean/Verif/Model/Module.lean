/-
Model of the evaluation of modules (`/repo/src/lib/rjs_module_opt.c`:834-1393).

Modules are numbered.  What does not change during evaluation, the modules requested by each
module and whether it has a top level `await`, is given by a `Graph` of linked modules.

User code.  The body of a module without top level `await` is one step of the model; whether it
throws, and what, is given by an arbitrary function of what has happened so far (`Graph.body`).
The body of a module with top level `await` is started in one step and finishes in another one
(`Op.settle`), at any later time: the reaction of its promise is a job.  `import()` goes through
promises and their jobs (rjs_module_opt.c:2252-2299), so evaluation of a module never begins
during another one: it is an `Op.evaluate` later.  (It would if a script replaced
`Promise.prototype.then` by a function that calls its argument at once, or if the body of a module made the
embedding run jobs; neither is modelled.)

Failed assertions and null pointers are distinct outcomes.  Recursive functions have fuel, the
same for all (`Graph.fuel`); theorems hold for every value of it, or for all values that are
large enough.

Not modelled: loading and linking; native and JSON modules; failing memory allocation.
-/
namespace Verif.Module

/-- What must not happen. -/
inductive Fault where
  /-- The assertion at this line of rjs_module_opt.c fails. -/
  | assertion (line : Nat)
  /-- `cycle_root` is undefined where it is used as a module. -/
  | null (line : Nat)
  /-- The model ran out of fuel. -/
  | fuel
deriving DecidableEq, Repr

/-- `RJS_ModuleStatus` from `LINKED` on (`/repo/src/lib/include/rjs_module.h`). -/
inductive Status where
  | linked | evaluating | evaluatingAsync | evaluated
deriving DecidableEq, Repr

/-- A promise (C11: it settles at most once). -/
inductive Prom where
  | pending
  | fulfilled
  | rejected (e : Nat)
deriving DecidableEq, Repr

/-- What a script can see of the evaluation. -/
inductive Event where
  /-- The body of the module begins. -/
  | start (m : Nat)
  /-- The body has ended. -/
  | done (m : Nat)
  /-- The body has thrown. -/
  | fail (m : Nat) (e : Nat)
deriving DecidableEq, Repr

/-- The thrown value `undefined`. -/
def undef : Nat := 0

/-- The linked modules. -/
structure Graph where
  /-- The modules are `0`, ..., `size - 1`. -/
  size : Nat
  /-- `module_requests` (after linking, each has its module). -/
  requests : Nat → List Nat
  /-- `module_has_tla` (rjs_module_opt.c:837-849). -/
  tla : Nat → Bool
  /-- What the body of a module without top level `await` throws, if it throws. -/
  body : List Event → Nat → Option Nat
  fuel : Nat

/-- `RJS_Module` (`/repo/src/lib/include/rjs_module.h`:88-115), the part that changes. -/
structure Mod where
  status : Status := .linked
  /-- `eval_result` and `eval_error`. -/
  err : Option Nat := none
  /-- `dfs_index`. -/
  dfs : Nat := 0
  /-- `dfs_ancestor_index`. -/
  anc : Nat := 0
  /-- `cycle_root`. -/
  root : Option Nat := none
  /-- `async_eval`. -/
  order : Nat := 0
  /-- `pending_async`. -/
  pending : Nat := 0
  /-- `async_parent_list`. -/
  parents : List Nat := []
  /-- `top_level_capability`; `none` is `undefined`. -/
  cap : Option Prom := none
  /-- The body, which has a top level `await`, has been started and has not ended: the reactions
  of its promise are to come. -/
  running : Bool := false
deriving DecidableEq, Repr

/-- The runtime. -/
structure St where
  mods : Nat → Mod
  /-- `async_eval_cnt` (an `int`; overflow after 2 ^ 31 modules is not modelled). -/
  cnt : Nat := 1
  trace : List Event := []

/-- After linking (rjs_module_opt.c:195-232, 2793). -/
def init : St := { mods := fun _ => {} }

abbrev M := Except Fault

/-- Change of a module. -/
def set (s : St) (m : Nat) (v : Mod) : St :=
  { s with mods := fun x => if x = m then v else s.mods x }

def emit (s : St) (e : Event) : St := { s with trace := s.trace ++ [e] }

/-- A failed assertion. -/
def check (c : Bool) (line : Nat) : M Unit := if c then .ok () else .error (.assertion line)

/-- Calling `resolve` or `reject` of `top_level_capability`, if there is one. -/
def settleCap (p : Prom) (m : Mod) : Mod :=
  match m.cap with
  | some .pending => { m with cap := some p }
  | _ => m

/-! ## Execution of bodies -/

/-- `execute_module` in sync mode (rjs_module_opt.c:871-880): the error, if it throws. -/
def executeSync (G : Graph) (s : St) (m : Nat) : St × Option Nat :=
  let s := emit s (.start m)
  match G.body s.trace m with
  | none => (emit s (.done m), none)
  | some e => (emit s (.fail m e), some e)

/-- `execute_async_module` (rjs_module_opt.c:1167-1193).  Its result is ignored by the callers. -/
def executeAsync (s : St) (m : Nat) : St :=
  emit (set s m { s.mods m with running := true }) (.start m)

/-! ## Asynchronous completion -/

/-- `async_module_execution_rejected` (rjs_module_opt.c:1115-1145). -/
def rejected : Nat → St → Nat → Nat → M St
  | 0, _, _, _ => .error .fuel
  | f + 1, s, m, e => do
    if (s.mods m).status = .evaluated then
      check ((s.mods m).err ≠ none) 1124
      return s
    check ((s.mods m).status = .evaluatingAsync) 1128
    let s := set s m { s.mods m with status := .evaluated, err := some e }
    let s ← (s.mods m).parents.foldlM (fun s p => rejected f s p e) s
    if (s.mods m).cap ≠ none then
      check ((s.mods m).root = some m) 1139
    return set s m (settleCap (.rejected e) (s.mods m))

/-- The modules found by `gather_available_ancestors`. -/
structure Gather where
  st : St
  /-- The modules ready to be executed (`vec`). -/
  ready : List Nat := []
  /-- The modules seen (`hash`). -/
  seen : List Nat := []

/-- Rjs_module_opt.c:969-974. -/
def rootFailed (s : St) (p : Nat) : Bool :=
  match (s.mods p).root with
  | some r => (s.mods r).err.isSome
  | none => false

/-- `gather_available_ancestors` (rjs_module_opt.c:953-999) for one entry of the list of
parents. -/
def gatherOne (G : Graph) (rec : Gather → Nat → M Gather) (g : Gather) (p : Nat) : M Gather := do
  if (g.st.mods p).status = .evaluated then return g
  if rootFailed g.st p then return g
  if p ∈ g.seen then return g
  let g := { g with seen := p :: g.seen }
  check ((g.st.mods p).status = .evaluatingAsync) 983
  check ((g.st.mods p).err = none) 984
  check ((g.st.mods p).order ≠ 0) 985
  check (0 < (g.st.mods p).pending) 986
  let g := { g with st := set g.st p { g.st.mods p with pending := (g.st.mods p).pending - 1 } }
  if (g.st.mods p).pending = 0 then
    let g := { g with ready := g.ready ++ [p] }
    if G.tla p then return g else rec g p
  else return g

/-- `gather_available_ancestors` (rjs_module_opt.c:953-999). -/
def gather (G : Graph) : Nat → Gather → Nat → M Gather
  | 0, _, _ => .error .fuel
  | f + 1, g, m => (g.st.mods m).parents.foldlM (gatherOne G (gather G f)) g

/-- `rjs_sort` with `async_module_sort` (rjs_module_opt.c:937-948, 1029): sorting by `async_eval`
(that `rjs_sort` sorts is C01). -/
def insert (key : Nat → Nat) (x : Nat) : List Nat → List Nat
  | [] => [x]
  | y :: ys => if key x ≤ key y then x :: y :: ys else y :: insert key x ys

def sort (key : Nat → Nat) : List Nat → List Nat
  | [] => []
  | x :: xs => insert key x (sort key xs)

/-- One turn of the loop of `execute_valid_modules` (rjs_module_opt.c:1032-1060); the list is
`mod_list`. -/
def executeOne (G : Graph) (a : St × List Nat) (p : Nat) : M (St × List Nat) := do
  let (s, done) := a
  if (s.mods p).status = .evaluated then
    -- `eval_error` is undefined also if `undefined` was thrown
    check ((s.mods p).err ≠ none ∧ (s.mods p).err ≠ some undef) 1038
    return (s, done)
  else if G.tla p then return (executeAsync s p, done)
  else
    match executeSync G s p with
    | (s, some e) => do
      let s ← rejected G.fuel s p e
      return (s, done)
    | (s, none) => do
      let s := set s p { s.mods p with status := .evaluated }
      if (s.mods p).cap ≠ none then check ((s.mods p).root = some p) 1052
      return (set s p (settleCap .fulfilled (s.mods p)), done ++ [p])

/-- `execute_valid_modules` (rjs_module_opt.c:1001-1069). -/
def executeValid (G : Graph) : Nat → St → Nat → M St
  | 0, _, _ => .error .fuel
  | f + 1, s, m => do
    let g ← gather G G.fuel { st := s } m
    let (s, done) ← (sort (fun p => (g.st.mods p).order) g.ready).foldlM (executeOne G) (g.st, [])
    done.foldlM (executeValid G f) s

/-- `async_module_execution_fulfilled` (rjs_module_opt.c:1071-1093). -/
def fulfilled (G : Graph) (s : St) (m : Nat) : M St := do
  if (s.mods m).status = .evaluated then
    check ((s.mods m).err ≠ none) 1080
    return s
  let s := set s m { s.mods m with order := 0, status := .evaluated }
  let s := set s m (settleCap .fulfilled (s.mods m))
  executeValid G G.fuel s m

/-! ## Evaluation -/

/-- The result of `inner_module_evaluation`: the next index, or an error. -/
inductive Res where
  | ok (index : Nat)
  | threw (e : Nat)
deriving DecidableEq, Repr

/-- After the evaluation of the requested module `d` (rjs_module_opt.c:1240-1271): the error of
its cycle, if it has one. -/
def visit (s : St) (m d : Nat) : M (St × Option Nat) := do
  if (s.mods d).status = .evaluating then
    let s := set s m { s.mods m with anc := min (s.mods m).anc (s.mods d).anc }
    return (wait s m d, none)
  else if (s.mods d).status = .linked then .error (.assertion 1242)
  else
    match (s.mods d).root with
    | none => .error (.null 1251)
    | some r => do
      check ((s.mods r).status = .evaluatingAsync ∨ (s.mods r).status = .evaluated) 1253
      match (s.mods r).err with
      | some e => return (s, some e)
      | none => return (wait s m r, none)
where
  /-- Rjs_module_opt.c:1262-1271. -/
  wait (s : St) (m t : Nat) : St :=
    if (s.mods t).order ≠ 0 then
      let s := set s t { s.mods t with parents := (s.mods t).parents ++ [m] }
      set s m { s.mods m with pending := (s.mods m).pending + 1 }
    else s

/-- The loop over the requested modules (rjs_module_opt.c:1229-1273). -/
def visitAll (rec : St → List Nat → Nat → Nat → M (St × List Nat × Res)) (m : Nat) :
    List Nat → St → List Nat → Nat → M (St × List Nat × Res)
  | [], s, stack, index => .ok (s, stack, .ok index)
  | d :: ds, s, stack, index => do
    let (s, stack, r) ← rec s stack index d
    match r with
    | .threw e => return (s, stack, .threw e)
    | .ok index => do
      let (s, r) ← visit s m d
      match r with
      | some e => return (s, stack, .threw e)
      | none => visitAll rec m ds s stack index

/-- Execution in `inner_module_evaluation` (rjs_module_opt.c:1275-1288): the error, if it
throws. -/
def execute (G : Graph) (s : St) (m : Nat) : M (St × Option Nat) := do
  if (s.mods m).pending ≠ 0 ∨ G.tla m then
    check ((s.mods m).order = 0) 1277
    let s := { set s m { s.mods m with order := s.cnt } with cnt := s.cnt + 1 }
    return (if (s.mods m).pending = 0 then executeAsync s m else s, none)
  else return executeSync G s m

/-- The end of a cycle (rjs_module_opt.c:1293-1307). -/
def popCycle (m : Nat) : List Nat → St → St × List Nat
  | [], s => (s, [])
  | x :: stack, s =>
    let s := set s x { s.mods x with
      root := some m, status := if (s.mods x).order ≠ 0 then .evaluatingAsync else .evaluated }
    if x = m then (s, stack) else popCycle m stack s

/-- `inner_module_evaluation` (rjs_module_opt.c:1197-1311). -/
def inner (G : Graph) : Nat → St → List Nat → Nat → Nat → M (St × List Nat × Res)
  | 0, _, _, _, _ => .error .fuel
  | f + 1, s, stack, index, m => do
    match (s.mods m).status with
    | .evaluatingAsync | .evaluated =>
      match (s.mods m).err with
      | none => return (s, stack, .ok index)
      | some e => return (s, stack, .threw e)
    | .evaluating => return (s, stack, .ok index)
    | .linked =>
      let s := set s m { s.mods m with status := .evaluating, dfs := index, anc := index }
      let (s, stack, r) ← visitAll (inner G f) m (G.requests m) s (m :: stack) (index + 1)
      match r with
      | .threw e => return (s, stack, .threw e)
      | .ok index => do
        let (s, r) ← execute G s m
        match r with
        | some e => return (s, stack, .threw e)
        | none =>
          if (s.mods m).dfs = (s.mods m).anc then
            let (s, stack) := popCycle m stack s
            return (s, stack, .ok index)
          else return (s, stack, .ok index)

/-- The modules left on the stack after an error (rjs_module_opt.c:1360-1370). -/
def abandon (e : Nat) (s : St) (x : Nat) : M St := do
  check ((s.mods x).status = .evaluating) 1361
  return set s x { s.mods x with status := .evaluated, err := some e, root := some x }

/-- The module whose promise is returned: the module, or the first one of its cycle
(rjs_module_opt.c:1337-1347). -/
def target (s : St) (m : Nat) : M Nat := do
  check ((s.mods m).status ≠ .evaluating) 1337
  if (s.mods m).status = .linked then return m
  else match (s.mods m).root with
    | some r => return r
    | none => .error (.null 1344)

/-- The end of a first evaluation (rjs_module_opt.c:1355-1384). -/
def finish (s : St) (m : Nat) (stack : List Nat) : Res → M St
  | .threw e => do
    let s ← stack.foldlM (abandon e) s
    return set s m (settleCap (.rejected e) (s.mods m))
  | .ok _ => do
    let s := if (s.mods m).order = 0 then
        set s m (settleCap .fulfilled { s.mods m with status := .evaluated })
      else s
    check stack.isEmpty 1383
    return s

/-- `rjs_module_evaluate` (rjs_module_opt.c:1322-1393).  The promise returned is the
`top_level_capability` of the module returned. -/
def evaluate (G : Graph) (s : St) (m : Nat) : M (St × Nat) := do
  let m ← target s m
  if (s.mods m).cap ≠ none then return (s, m)
  let s := set s m { s.mods m with cap := some .pending }
  let (s, stack, r) ← inner G G.fuel s [] 0 m
  let s ← finish s m stack r
  return (s, m)

/-! ## Executions -/

/-- What may happen between two evaluations. -/
inductive Op where
  /-- A module is evaluated: by the embedding, or by `import()`. -/
  | evaluate (m : Nat)
  /-- The body of a module with top level `await` has ended, or has thrown. -/
  | settle (m : Nat) (r : Option Nat)
deriving DecidableEq, Repr

/-- The operation can happen. -/
def Op.can (G : Graph) (s : St) : Op → Prop
  | .evaluate m => m < G.size
  | .settle m _ => (s.mods m).running = true

instance (G : Graph) (s : St) (o : Op) : Decidable (o.can G s) := by
  cases o <;> unfold Op.can <;> infer_instance

/-- One operation.  The reactions of the promise of the body are
`async_module_execution_fulfilled_nf` (rjs_module_opt.c:1095-1112) and
`async_module_execution_rejected_nf` (rjs_module_opt.c:1147-1165). -/
def step (G : Graph) (s : St) : Op → M St
  | .evaluate m => do
    let (s, _) ← evaluate G s m
    return s
  | .settle m r =>
    let s := set s m { s.mods m with running := false }
    match r with
    | none => fulfilled G (emit s (.done m)) m
    | some e => rejected G.fuel (emit s (.fail m e)) m e

/-- An execution. -/
inductive Run (G : Graph) : St → Prop
  | init : Run G init
  | step {s s' o} : Run G s → o.can G s → step G s o = .ok s' → Run G s'

end Verif.Module
