/-!
# Iterators, `%AsyncFromSyncIteratorPrototype%` and `Promise.race` on arbitrary objects

rjs_iterator.c (`rjs_get_iterator`, `rjs_iterator_next`, `rjs_iterator_complete`, `rjs_iterator_value`,
`rjs_iterator_step`, `rjs_iterator_close`), rjs_async_function_object_inc.c:111-315 and
rjs_promise_object_inc.c:43-75, 704-795, with the register `rt->error`, `rt->error_flag`.  Properties and
functions may be anything: each access or call changes the state and gives a value or throws, and may leave
anything in the register.

Simplifications: a result object is a function of its value and flag (its identity is not followed); the
iterator record is the pair of its two values, and `done` is kept where `Promise.race` reads it; awaiting
and the closing of async iterators are left out.
-/

namespace Verif.Iter

/-- The property names that are read. -/
inductive Name where
  | iterator | asyncIterator | next | done | value | ret | throw | resolve | then_
  deriving DecidableEq

/-- What an operation that succeeds leaves in the register (`rjs_throw`, `rjs_catch`, rjs_error.c:257-275,
350-363): what was there; no error (something was caught); an error that nobody has caught (a built-in
function has turned it into a rejected promise). -/
inductive Leave (V : Type) where
  | keep | clear | pend (e : V)
  deriving DecidableEq

/-- What an access or a call gives. -/
inductive Res (σ V α : Type) where
  | ok (s : σ) (l : Leave V) (a : α)
  | thr (s : σ) (e : V)
  deriving DecidableEq

/-- `RJS_PromiseCapability` (include/ratjs/rjs_promise.h). -/
structure Cap (V : Type) where
  promise : V
  resolve : V
  reject : V
  deriving DecidableEq

/-- The values of the program: properties (`rjs_get_v`), functions (`rjs_object_call`), `rjs_promise_resolve`
with `%Promise%` (rjs_promise.c:614), `rjs_new_promise_capability` (rjs_promise.c:562),
`rjs_perform_proimise_then` with the function that makes the result (rjs_promise.c:697), result objects
(`rjs_create_iter_result_object`, rjs_iterator.c:393-408). -/
structure World (σ V : Type) where
  isObj : V → Bool
  callable : V → Bool
  isUndef : V → Bool
  isNull : V → Bool
  truthy : V → Bool
  undef : V
  typeErr : V
  result : V → Bool → V
  getV : V → Name → σ → Res σ V V
  callF : V → V → List V → σ → Res σ V V
  wrap : V → σ → Res σ V V
  newCap : V → σ → Res σ V (Cap V)
  chain : V → Bool → Cap V → σ → σ

/-- The state of the program and the register. -/
structure M (σ V : Type) where
  s : σ
  flag : Bool
  err : V
  deriving DecidableEq

/-- The end of a C function: RJS_OK with its result, or RJS_ERR (the exception is in the register). -/
inductive Out (σ V α : Type) where
  | ok (m : M σ V) (a : α)
  | fail (m : M σ V)
  deriving DecidableEq

variable {σ V : Type}

/-- C functions. -/
abbrev Fn (σ V α : Type) := M σ V → Out σ V α

/-- `r = RJS_OK`. -/
def pass {α : Type} (a : α) : Fn σ V α := fun m => .ok m a

/-- `if ((r = x) == RJS_ERR) goto end;`. -/
def seq {α β : Type} (x : Fn σ V α) (f : α → Fn σ V β) : Fn σ V β := fun m =>
  match x m with
  | .ok m a => f a m
  | .fail m => .fail m

/-- `rjs_throw` (rjs_error.c:257-275). -/
def raise {α : Type} (e : V) : Fn σ V α := fun m => .fail { m with flag := true, err := e }

/-- What remains in the register (rjs_error.c:350-363). -/
def leave (W : World σ V) (m : M σ V) : Leave V → M σ V
  | .keep => m
  | .clear => { m with flag := false, err := W.undef }
  | .pend e => { m with flag := true, err := e }

/-- An access or a call. -/
def act {α : Type} (W : World σ V) (x : σ → Res σ V α) : Fn σ V α := fun m =>
  match x m.s with
  | .ok s l a => .ok (leave W { m with s := s } l) a
  | .thr s e => .fail { s := s, flag := true, err := e }

/-- `rjs_call` (include/ratjs/rjs_operation.h:1414-1421). -/
def call (W : World σ V) (f this : V) (args : List V) : Fn σ V V :=
  if W.callable f then act W (W.callF f this args) else raise W.typeErr

/-- `rjs_get_method` (include/ratjs/rjs_operation.h:1249-1269). -/
def getMethod (W : World σ V) (v : V) (n : Name) : Fn σ V (Option V) :=
  seq (act W (W.getV v n)) fun f =>
  if W.isUndef f then pass none
  else if W.isNull f then pass none
  else if W.callable f then pass (some f)
  else raise W.typeErr

/-- `RJS_Iterator`: the object and its method `next`; wrapped by `create_async_from_sync_iterator` or not. -/
structure Rec (V : Type) where
  iter : V
  next : V
  wrapped : Bool
  deriving DecidableEq

/-- `rjs_get_iterator` with a method given (rjs_iterator.c:142-157); a missing method is the value undefined. -/
def fromMethod (W : World σ V) (obj : V) (method : Option V) (wrapped : Bool) : Fn σ V (Rec V) :=
  seq (call W (method.getD W.undef) obj []) fun it =>
  if W.isObj it then
    seq (act W (W.getV it .next)) fun nx => pass ⟨it, nx, wrapped⟩
  else raise W.typeErr

/-- `rjs_get_iterator` (rjs_iterator.c:103-161). -/
def getIterator (W : World σ V) (obj : V) (async : Bool) : Fn σ V (Rec V) :=
  if async then
    seq (getMethod W obj .asyncIterator) fun f =>
    match f with
    | none => seq (getMethod W obj .iterator) fun f => fromMethod W obj f true
    | some f => fromMethod W obj (some f) false
  else seq (getMethod W obj .iterator) fun f => fromMethod W obj f false

/-- `rjs_iterator_next` (rjs_iterator.c:172-191). -/
def iterNext (W : World σ V) (r : Rec V) (arg : Option V) : Fn σ V V :=
  seq (call W r.next r.iter arg.toList) fun res =>
  if W.isObj res then pass res else raise W.typeErr

/-- `rjs_iterator_complete` (rjs_iterator.c:201-215). -/
def complete (W : World σ V) (res : V) : Fn σ V Bool :=
  seq (act W (W.getV res .done)) fun d => pass (W.truthy d)

/-- `rjs_iterator_value` (rjs_iterator.c:226-230). -/
def value (W : World σ V) (res : V) : Fn σ V V := act W (W.getV res .value)

/-- `rjs_iterator_step` (rjs_iterator.c:241-256). -/
def step (W : World σ V) (r : Rec V) : Fn σ V (Option V) :=
  seq (iterNext W r none) fun res =>
  seq (complete W res) fun d => if d then pass none else pass (some res)

/-- The body of `rjs_iterator_close` (rjs_iterator.c:279-294). -/
def closeBody (W : World σ V) (r : Rec V) : Fn σ V Unit :=
  seq (getMethod W r.iter .ret) fun f =>
  match f with
  | none => pass ()
  | some f =>
    seq (call W f r.iter []) fun res => if W.isObj res then pass () else raise W.typeErr

/-- `rjs_iterator_close` (rjs_iterator.c:265-302): the error, not the flag, is put back. -/
def close (W : World σ V) (r : Rec V) : Fn σ V Unit := fun m =>
  match closeBody W r m with
  | .ok m' a => .ok (if m.flag then { m' with err := m.err } else m') a
  | .fail m' => .fail (if m.flag then { m' with err := m.err } else m')

/-- `if_abrupt_reject_promise` (rjs_promise_object_inc.c:66-75) and what its callers do: on an error
`reject` is called, its result is not looked at, and the promise is given back. -/
def orReject {α : Type} (W : World σ V) (pc : Cap V) (x : Fn σ V α) (f : α → Fn σ V V) : Fn σ V V := fun m =>
  match x m with
  | .ok m a => f a m
  | .fail m =>
    match call W pc.reject W.undef [m.err] m with
    | .ok m _ => .ok m pc.promise
    | .fail m => .ok m pc.promise

/-- `rjs_call(rt, pc.resolve, …)`, `rjs_call(rt, pc.reject, …)` with the result not looked at
(rjs_async_function_object_inc.c:231, 249, 289, 303). -/
def tell (W : World σ V) (f : V) (v : V) (pc : Cap V) : Fn σ V V := fun m =>
  match call W f W.undef [v] m with
  | .ok m _ => .ok m pc.promise
  | .fail m => .ok m pc.promise

/-- `async_from_sync_iterator_continuation` (rjs_async_function_object_inc.c:124-166). -/
def continuation (W : World σ V) (res : V) (pc : Cap V) : Fn σ V V :=
  orReject W pc (complete W res) fun d =>
  orReject W pc (value W res) fun v =>
  orReject W pc (act W (W.wrap v)) fun w => fun m =>
    .ok { m with s := W.chain w d pc m.s } pc.promise

/-- `AsyncFromSyncIteratorPrototype_next` (rjs_async_function_object_inc.c:169-202). -/
def nextFn (W : World σ V) (r : Rec V) (pc : Cap V) (arg : Option V) : Fn σ V V :=
  orReject W pc (iterNext W r arg) fun res => continuation W res pc

/-- `AsyncFromSyncIteratorPrototype_return` (rjs_async_function_object_inc.c:205-261). -/
def returnFn (W : World σ V) (r : Rec V) (pc : Cap V) (arg : Option V) : Fn σ V V :=
  orReject W pc (getMethod W r.iter .ret) fun f =>
  match f with
  | none => tell W pc.resolve (W.result (arg.getD W.undef) true) pc
  | some f =>
    orReject W pc (call W f r.iter arg.toList) fun res =>
    if W.isObj res then continuation W res pc else tell W pc.reject W.typeErr pc

/-- `AsyncFromSyncIteratorPrototype_throw` (rjs_async_function_object_inc.c:264-315).  The engine calls it
with an argument only (rjs_generator_opt.c:660-690). -/
def throwFn (W : World σ V) (r : Rec V) (pc : Cap V) (v : V) : Fn σ V V :=
  orReject W pc (getMethod W r.iter .throw) fun f =>
  match f with
  | none => tell W pc.reject v pc
  | some f =>
    orReject W pc (call W f r.iter [v]) fun res =>
    if W.isObj res then continuation W res pc else tell W pc.reject W.typeErr pc

/-- `get_promise_resolve` (rjs_promise_object_inc.c:44-56). -/
def getResolve (W : World σ V) (c : V) : Fn σ V V :=
  seq (act W (W.getV c .resolve)) fun f => if W.callable f then pass f else raise W.typeErr

/-- `rjs_invoke` (include/ratjs/rjs_operation.h:1722-1735) of `then`. -/
def invokeThen (W : World σ V) (p : V) (args : List V) : Fn σ V V :=
  seq (act W (W.getV p .then_)) fun f => call W f p args

/-- What is done with one value (rjs_promise_object_inc.c:739-743). -/
def raceOne (W : World σ V) (c resolve : V) (pc : Cap V) (v : V) : Fn σ V V :=
  seq (call W resolve c [v]) fun p => invokeThen W p [pc.resolve, pc.reject]

/-- `perform_promise_race` (rjs_promise_object_inc.c:705-750), at most `n` rounds: `none` when they do not
suffice, else how it ends and the iterator's `done`. -/
def raceLoop (W : World σ V) (r : Rec V) (c resolve : V) (pc : Cap V) :
    Nat → M σ V → Option (Out σ V Unit × Bool)
  | 0, _ => none
  | n + 1, m =>
    match step W r m with
    | .fail m => some (.fail m, true)
    | .ok m none => some (.ok m (), true)
    | .ok m (some res) =>
      match value W res m with
      | .fail m => some (.fail m, true)
      | .ok m v =>
        match raceOne W c resolve pc v m with
        | .fail m => some (.fail m, false)
        | .ok m _ => raceLoop W r c resolve pc n m

/-- The end of `Promise_race` (rjs_promise_object_inc.c:780-792). -/
def raceEnd (W : World σ V) (r : Rec V) (pc : Cap V) : Out σ V Unit × Bool → Out σ V V
  | (.ok m _, _) => .ok m pc.promise
  | (.fail m, true) => orReject W pc (fun m => .fail m) (fun (_ : Unit) => pass pc.promise) m
  | (.fail m, false) =>
    let m' := match close W r m with | .ok m' _ => m' | .fail m' => m'
    orReject W pc (fun m => .fail m) (fun (_ : Unit) => pass pc.promise) m'

/-- `Promise_race` (rjs_promise_object_inc.c:753-799), at most `n` rounds. -/
def race (W : World σ V) (c iterable : V) (n : Nat) (m : M σ V) : Option (Out σ V V) :=
  match act W (W.newCap c) m with
  | .fail m => some (.fail m)
  | .ok m pc =>
    match getResolve W c m with
    | .fail m => some (orReject W pc (fun m => .fail m) (fun (_ : Unit) => pass pc.promise) m)
    | .ok m resolve =>
      match getIterator W iterable false m with
      | .fail m => some (orReject W pc (fun m => .fail m) (fun (_ : Unit) => pass pc.promise) m)
      | .ok m r => (raceLoop W r c resolve pc n m).map (raceEnd W r pc)

end Verif.Iter
