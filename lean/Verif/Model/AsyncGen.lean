/-!
# Async generators

Model of the asynchronous half of `src/lib/rjs_generator_opt.c`, of `rjs_script_func_call`
(`src/lib/rjs_script.c` 902-972), of the commands `await`, `yield`, `yield_resume`,
`yield_iter_start` and `yield_iter_next` (`src/lib/rjs_bc_call.c` 350-389, 1283-1302) and of
`rjs_await` (`src/lib/rjs_operation.c` 1585-1621), for one async generator.

Everything else is the environment, which does what a program could do, in any order: the code of
the generator, the methods of the iterator of a `yield*`, calls of `next`, `return` and `throw` at
any moment at which other code runs, and the settling of the promises awaited.

Other code runs also while the engine resolves the promise of a request with a result object: the
resolving function reads the property `then` of the object, which may be an accessor of
`Object.prototype` (rjs_promise.c:410).  And while it makes a promise of the value given to
`return`: this reads the property `constructor` (rjs_promise.c:614-650).

Simplified: the brand is always the empty string; calls made while a promise is made of the value
of a `return` which the code awaits at a `yield` are taken to be made before or after that (they
are only appended to the queue); "settled" means that the resolving function of the promise was
called (which settles it at once unless the result object has a `then` method).
-/

namespace Verif.AsyncGen

/-- ECMAScript values; 0 is undefined. -/
abbrev Val := Nat

/-- The value undefined. -/
def undef : Val := 0

/-- What the model may stop with: a failed assertion; the use of a request already deleted; an
await that is settled although nothing waits for it; and an operation that cannot happen, which is
not a fault of the engine. -/
inductive Fault where
  | assert | freed | lost | stuck
  deriving DecidableEq, Repr

/-- `RJS_GeneratorState` (include/rjs_generator.h:39-46). -/
inductive Phase where
  | start | yielded | executing | awaitReturn | completed
  deriving DecidableEq, Repr

/-- `RJS_GeneratorRequestType`: next, return, throw. -/
inductive Kind where
  | next | ret | thr
  deriving DecidableEq, Repr

/-- `RJS_AsyncGeneratorRequest` (include/rjs_generator.h): the number of the call stands for its
promise. `bad` is the error thrown when a promise is made of the value (reading `constructor`). -/
structure Req where
  id : Nat
  kind : Kind
  val : Val
  bad : Option Val
  deriving DecidableEq, Repr

/-- A result object (`rjs_create_iter_result_object`). -/
structure Obj where
  value : Val
  done : Bool
  deriving DecidableEq, Repr

/-- How the promise of a request is settled. -/
inductive Answer where
  | result (o : Obj) | rejected (e : Val)
  deriving DecidableEq, Repr

/-- `ac->op`: what is to be done when the promise awaited is settled, or the generator is resumed:
`await_command` (plain `await`), `await_async_generator_yield`, `..._yield_return`,
`..._iterator_yield_next`, `..._iterator_next`, `..._iterator_return`, `await_throw_type_error`,
`..._iterator_yield_return_undefined` (rjs_generator_opt.c:476-664). -/
inductive AOp where
  | command | yieldV | yieldReturn | iterYieldNext | iterNext | iterReturn | throwTypeError
  | returnUndefined
  deriving DecidableEq, Repr

/-- Where the byte code goes on: at the beginning, at the `yield_resume` after a `yield`, or at the
`yield_iter_next` of a `yield*`. -/
inductive Pos where
  | begin | resume | star
  deriving DecidableEq, Repr

/-- What follows when the promise of a request was resolved: the end of a `yield`
(rjs_generator_opt.c:514-521), that of a yield of a `yield*` (624-634), the start of
`rjs_async_generator_drain_queue` (rjs_script.c:939-940, rjs_generator_opt.c:343-344), or its loop
(429-437). -/
inductive Cont where
  | yield | star | finish | drain
  deriving DecidableEq, Repr

/-- What runs: the code of the generator, a method of the iterator of its `yield*`, other code
called while the promise of a request is resolved (`rjs_async_generator_complete_step`), other code
called while a promise is made of the value of a `return` (`async_generator_await_return`). -/
inductive Frame where
  | body
  | delegate
  | completing (id : Nat) (c : Cont)
  | returning (bad : Option Val)
  deriving DecidableEq, Repr

/-- `RJS_AsyncGenerator` and its context: the state, the queue, the request received
(`none` is `RJS_GENERATOR_REQUEST_END`), the place in the byte code, the operation to be done; the
number of awaits not settled, and of awaits of a `return`; what runs; the requests settled so far,
in order; the number of calls so far. -/
structure State where
  phase : Phase
  queue : List Req
  kind : Option Kind
  val : Val
  pos : Pos
  op : Option AOp
  armed : Nat
  returns : Nat
  stack : List Frame
  log : List (Nat × Answer)
  count : Nat
  deriving DecidableEq, Repr

/-- What an iterator's result, given to a `yield*`, turns out to be (rjs_generator_opt.c:602-612):
not an object, an object with a getter that throws, or a value and `done`. -/
inductive Res where
  | notObject | threw (e : Val) | object (o : Obj)
  deriving DecidableEq, Repr

/-- The operations of the environment. -/
inductive Op where
  /-- `next`, `return` or `throw` is called. -/
  | call (k : Kind) (v : Val) (bad : Option Val)
  /-- The other code called by the engine ends. -/
  | back
  /-- The code of the generator comes to an `await`. -/
  | await
  /-- It comes to a `yield`. -/
  | yield
  /-- It ends by returning `v`. -/
  | ret (v : Val)
  /-- It ends by throwing `e`. -/
  | throw (e : Val)
  /-- It comes to a `yield*`, and has got the iterator. -/
  | star
  /-- The method of the iterator throws, or what it gives cannot be awaited. -/
  | starThrew (e : Val)
  /-- The method of the iterator gives a promise, which is awaited; `has` says that there is such a
  method. Without a method `throw`, the promise awaited is that of closing the iterator; without a
  method `return`, it is the value. -/
  | starAwait (has : Bool)
  /-- There is no method `throw`, and closing the iterator does not need to be awaited. -/
  | starClosed
  /-- The promise awaited is fulfilled with `v`; if it is the result of an iterator, it is `r`. -/
  | fulfill (v : Val) (r : Res)
  /-- The promise awaited is rejected with `e`. -/
  | reject (e : Val)
  /-- The promise made of the value of a `return` is fulfilled. -/
  | returned (v : Val)
  /-- The promise made of the value of a `return` is rejected. -/
  | returnFailed (e : Val)
  deriving DecidableEq, Repr

/-- What the engine does with the code of the generator: nothing; start it; let it go on at a
`yield` with a request; at a `yield` whose value could not be awaited; at an `await`; call the method
of the iterator of a `yield*`; leave the `yield*` with a value, an error (`none` is a TypeError) or
a return. -/
inductive Out where
  | none
  | enter
  | deliver (k : Kind) (v : Val)
  | yieldFailed (e : Val)
  | awaited (v : Val)
  | awaitFailed (e : Val)
  | delegate (k : Kind) (v : Val)
  | starValue (v : Val)
  | starThrow (e : Option Val)
  | starReturn (v : Val)
  deriving DecidableEq, Repr

/-- `async_generator_start` (rjs_generator_opt.c:278-330). -/
def init : State :=
  { phase := .start, queue := [], kind := some .next, val := undef, pos := .begin, op := none,
    armed := 0, returns := 0, stack := [], log := [], count := 0 }

/-- `async_generator_enqueue` (rjs_generator_opt.c:165-187). -/
def enqueue (s : State) (k : Kind) (v : Val) (bad : Option Val) : State :=
  { s with queue := s.queue ++ [⟨s.count, k, v, bad⟩] }

/-- The promise of a call is settled. -/
def settle (s : State) (id : Nat) (a : Answer) : State := { s with log := s.log ++ [(id, a)] }

/-- `async_generator_await_return` up to the call of `rjs_promise_resolve`
(rjs_generator_opt.c:369-388). -/
def awaitReturn (s : State) : Except Fault State :=
  match s.queue with
  | [] => .error .assert
  | r :: _ =>
    if r.kind = .ret then .ok { s with stack := .returning r.bad :: s.stack }
    else .error .assert

/-- `rjs_async_generator_complete_step` with a value, up to the call of the resolving function
(rjs_generator_opt.c:200-228). -/
def resolve (s : State) (o : Obj) (c : Cont) : Except Fault State :=
  match s.queue with
  | [] => .error .assert
  | r :: _ => .ok { settle s r.id (.result o) with stack := .completing r.id c :: s.stack }

/-- `rjs_async_generator_complete_step` with an error (rjs_generator_opt.c:200-236): no other code
runs. -/
def rejectFirst (s : State) (e : Val) : Except Fault State :=
  match s.queue with
  | [] => .error .assert
  | r :: rest => .ok { settle s r.id (.rejected e) with queue := rest }

/-- The loop of `rjs_async_generator_drain_queue` (rjs_generator_opt.c:429-437). -/
def drainLoop (s : State) : List Req → Except Fault State
  | [] => .ok { s with queue := [] }
  | r :: rest =>
    match r.kind with
    | .ret => awaitReturn { s with phase := .awaitReturn, queue := r :: rest }
    | .thr => drainLoop (settle s r.id (.rejected r.val)) rest
    | .next => resolve { s with queue := r :: rest } ⟨r.val, true⟩ .drain

/-- `rjs_async_generator_drain_queue` (rjs_generator_opt.c:421-440). -/
def drain (s : State) : Except Fault State :=
  if s.phase = .completed then drainLoop s s.queue else .error .assert

/-- The code ends with an error: `rjs_script_func_call` (rjs_script.c:926-940), and the same in
`async_generator_await_return_reject` (rjs_generator_opt.c:359-362) and
`async_generator_await_return` (389-393). -/
def finishError (s : State) (e : Val) : Except Fault State := do
  let s ← rejectFirst { s with phase := .completed } e
  drain s

/-- The code ends with a value (rjs_script.c:926-940), and the same in
`async_generator_await_return_fulfill` (rjs_generator_opt.c:341-344). -/
def finishValue (s : State) (v : Val) : Except Fault State :=
  resolve { s with phase := .completed } ⟨v, true⟩ .finish

/-- `rjs_await` (rjs_operation.c:1585-1621): the operation is set, the function suspended. -/
def suspend (s : State) (op : AOp) : State := { s with op := some op, armed := s.armed + 1 }

/-- The context of the generator runs. -/
def run (s : State) (f : Frame) : State := { s with stack := f :: s.stack }

/-- `rjs_yield_resume` (rjs_generator_opt.c:1199-1240) and `async_generator_unwrap_yield_resumption`
(452-474). -/
def yieldResume (s : State) : Except Fault (State × Out) :=
  match s.queue with
  | [] => .error .assert
  | r :: _ =>
    match r.kind with
    | .next => .ok (run { s with kind := some .next, val := r.val } .body, .deliver .next r.val)
    | .thr => .ok (run { s with kind := some .thr, val := r.val } .body, .deliver .thr r.val)
    | .ret =>
      match r.bad with
      | some e => .ok (run s .body, .deliver .thr e)
      | none => .ok (suspend s .yieldReturn, .none)

/-- `async_generator_iterator_next` (rjs_generator_opt.c:544-567), then `yield_iter_next`
(676-716). -/
def iterNext (s : State) : Except Fault (State × Out) :=
  match s.queue with
  | [] => .error .assert
  | r :: _ =>
    match r.kind with
    | .next => .ok (run { s with kind := some .next, val := r.val } .delegate, .delegate .next r.val)
    | .thr => .ok (run { s with kind := some .thr, val := r.val } .delegate, .delegate .thr r.val)
    | .ret =>
      match r.bad with
      | some e => .ok (run s .body, .starThrow (some e))
      | none => .ok (suspend s .iterReturn, .none)

/-- `async_generator_resume` (rjs_generator_opt.c:747-768) and rjs_bc_call.c:1283-1302. -/
def resume (s : State) : Except Fault (State × Out) :=
  let op := s.op
  let s := { s with phase := .executing, op := none }
  match op with
  | some .iterNext => iterNext s
  | some _ => .error .lost
  | none =>
    match s.pos with
    | .begin => .ok (run s .body, .enter)
    | .resume => yieldResume s
    | .star => .error .lost

/-- `rjs_async_generator_next`, `rjs_async_generator_return`, `rjs_async_generator_throw`
(rjs_generator_opt.c:770-912). -/
def call (s : State) (k : Kind) (v : Val) (bad : Option Val) : Except Fault (State × Out) :=
  let done (s' : State) : State := { s' with count := s.count + 1 }
  match k with
  | .next =>
    if s.phase = .completed then .ok (done (settle s s.count (.result ⟨undef, true⟩)), .none)
    else
      let s := enqueue s .next v bad
      if s.phase = .yielded ∨ s.phase = .start then resume (done s)
      else .ok (done s, .none)
  | .ret =>
    let s := enqueue s .ret v bad
    if s.phase = .completed ∨ s.phase = .start then do
      let s ← awaitReturn (done { s with phase := .awaitReturn })
      .ok (s, .none)
    else if s.phase = .yielded then resume (done s)
    else .ok (done s, .none)
  | .thr =>
    let s := if s.phase = .start then { s with phase := .completed } else s
    if s.phase = .completed then .ok (done (settle s s.count (.rejected v)), .none)
    else
      let s := enqueue s .thr v bad
      if s.phase = .yielded then resume (done s)
      else .ok (done s, .none)

/-- What follows the call of a resolving function: the request is removed
(rjs_generator_opt.c:231-235), then the continuation. -/
def completed (s : State) (id : Nat) (c : Cont) : Except Fault (State × Out) :=
  if s.queue.any (·.id = id) then
    let s := { s with queue := s.queue.filter (·.id ≠ id) }
    match c with
    | .yield =>
      -- rjs_generator_opt.c:514-521
      if s.queue.isEmpty then .ok ({ s with phase := .yielded, pos := .resume }, .none)
      else yieldResume { s with pos := .resume }
    | .star =>
      -- rjs_generator_opt.c:627-634
      if s.queue.isEmpty then
        .ok ({ s with phase := .yielded, pos := .star, op := some .iterNext }, .none)
      else iterNext s
    | .finish => do
      let s ← drain s
      .ok (s, .none)
    | .drain => do
      let s ← drainLoop s s.queue
      .ok (s, .none)
  else .error .freed

/-- The operation `ac->op` is called: the promise is fulfilled (rjs_generator_opt.c:476-664,
`await_command`). -/
def fulfilled (s : State) (v : Val) (r : Res) : AOp → Except Fault (State × Out)
  | .command => .ok (run s .body, .awaited v)
  | .yieldV => do
    let s ← resolve s ⟨v, false⟩ .yield
    .ok (s, .none)
  | .yieldReturn => .ok (run s .body, .deliver .ret v)
  | .iterYieldNext =>
    match r with
    | .notObject => .ok (run s .body, .starThrow none)
    | .threw e => .ok (run s .body, .starThrow (some e))
    | .object o =>
      if o.done then
        if s.kind = some .ret then .ok (run s .body, .starReturn o.value)
        else .ok (run { s with kind := none, val := o.value } .body, .starValue o.value)
      else do
        let s ← resolve s ⟨o.value, false⟩ .star
        .ok (s, .none)
  | .iterNext => .error .lost
  | .iterReturn => .ok (run { s with kind := some .ret, val := v } .delegate, .delegate .ret v)
  | .throwTypeError => .ok (run s .body, .starThrow none)
  | .returnUndefined => .ok (run s .body, .starReturn v)

/-- The same when the promise is rejected. -/
def rejected (s : State) (e : Val) : AOp → Except Fault (State × Out)
  | .command => .ok (run s .body, .awaitFailed e)
  | .yieldV => .ok (run s .body, .yieldFailed e)
  | .yieldReturn => .ok (run s .body, .deliver .thr e)
  | .iterYieldNext => .ok (run s .body, .starThrow (some e))
  | .iterNext => .error .lost
  | .iterReturn => .ok (run { s with kind := some .thr, val := e } .delegate, .delegate .thr e)
  | .throwTypeError => .ok (run s .body, .starThrow (some e))
  | .returnUndefined => .ok (run s .body, .starThrow (some e))

/-- `await_fulfill_nf`, `await_reject_nf` (rjs_operation.c:1540-1572) and rjs_bc_call.c:1283-1302. -/
def settled (s : State) (k : State → AOp → Except Fault (State × Out)) : Except Fault (State × Out) :=
  if s.stack = [] ∧ s.armed > 0 then
    match s.op with
    | none => .error .lost
    | some op => k { s with op := none, armed := s.armed - 1 } op
  else .error .stuck

/-- One operation. -/
def step (s : State) : Op → Except Fault (State × Out)
  | .call k v bad => call s k v bad
  | .back =>
    match s.stack with
    | .completing id c :: rest => completed { s with stack := rest } id c
    | .returning bad :: rest =>
      -- rjs_generator_opt.c:388-408
      let s := { s with stack := rest }
      match bad with
      | none => .ok ({ s with returns := s.returns + 1 }, .none)
      | some e => do
        let s ← finishError s e
        .ok (s, .none)
    | _ => .error .stuck
  | .await =>
    match s.stack with
    | .body :: rest => .ok (suspend { s with stack := rest } .command, .none)
    | _ => .error .stuck
  | .yield =>
    -- `rjs_yield` (rjs_generator_opt.c:1168-1188)
    match s.stack with
    | .body :: rest => .ok (suspend { s with stack := rest } .yieldV, .none)
    | _ => .error .stuck
  | .ret v =>
    match s.stack with
    | .body :: rest => do
      let s ← finishValue { s with stack := rest } v
      .ok (s, .none)
    | _ => .error .stuck
  | .throw e =>
    match s.stack with
    | .body :: rest => do
      let s ← finishError { s with stack := rest } e
      .ok (s, .none)
    | _ => .error .stuck
  | .star =>
    -- `rjs_iterator_yield_start` (rjs_generator_opt.c:1249-1271), then 676-678
    match s.stack with
    | .body :: rest =>
      .ok ({ s with stack := .delegate :: rest, kind := some .next, val := undef, pos := .star },
        .delegate .next undef)
    | _ => .error .stuck
  | .starThrew e =>
    match s.stack with
    | .delegate :: rest => .ok ({ s with stack := .body :: rest }, .starThrow (some e))
    | _ => .error .stuck
  | .starAwait has =>
    -- `async_generator_iterator_yield_next` (rjs_generator_opt.c:666-728)
    match s.stack with
    | .delegate :: rest =>
      let s := { s with stack := rest }
      match s.kind with
      | some .next => .ok (suspend s .iterYieldNext, .none)
      | some .thr => .ok (suspend s (if has then .iterYieldNext else .throwTypeError), .none)
      | some .ret => .ok (suspend s (if has then .iterYieldNext else .returnUndefined), .none)
      | none => .error .assert
    | _ => .error .stuck
  | .starClosed =>
    match s.stack with
    | .delegate :: rest =>
      if s.kind = some .thr then .ok ({ s with stack := .body :: rest }, .starThrow none)
      else .error .stuck
    | _ => .error .stuck
  | .fulfill v r => settled s (fun s op => fulfilled s v r op)
  | .reject e => settled s (fun s op => rejected s e op)
  | .returned v =>
    if s.stack = [] ∧ s.returns > 0 then do
      let s ← finishValue { s with returns := s.returns - 1 } v
      .ok (s, .none)
    else .error .stuck
  | .returnFailed e =>
    if s.stack = [] ∧ s.returns > 0 then do
      let s ← finishError { s with returns := s.returns - 1 } e
      .ok (s, .none)
    else .error .stuck

/-- A run: what the engine did, in order. -/
def exec (s : State) : List Op → Except Fault (State × List Out)
  | [] => .ok (s, [])
  | op :: ops => do
    let (s, o) ← step s op
    let (s, l) ← exec s ops
    .ok (s, o :: l)

end Verif.AsyncGen
