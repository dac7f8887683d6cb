/-
Model of the promises (`/repo/src/lib/rjs_promise.c`).

The JavaScript code around the promises is not modelled; instead every sequence of events
is considered: any resolving function may be called at any time with any value, a `then`
getter may do anything before it returns, and so may the handler of a reaction.  This
includes all real executions.  Promises, resolving functions (by the status record they
share) and reactions are named by numbers.  Realms, `is_handled` and the error flag of the
runtime are left out.
-/
namespace Verif.Promise

/-- The values which `promise_resolve_nf` tells apart. -/
inductive Val where
  | prim (n : Nat)
  | obj (n : Nat)
  | promise (p : Nat)
  /-- the TypeError created when a promise is resolved with itself -/
  | selfError
deriving DecidableEq

def Val.isObject : Val → Bool
  | .prim _ => false
  | _ => true

inductive State where
  | pending
  | fulfilled (v : Val)
  | rejected (v : Val)
deriving DecidableEq

inductive RType where
  | fulfill
  | reject
deriving DecidableEq

/-- `RJS_PromiseReaction`: `id` names the `then` call, `handler`: whether the handler is
callable, `cap`: the status record of the capability's resolving functions. -/
structure Reaction where
  id : Nat
  type : RType
  handler : Bool
  cap : Option Nat
deriving DecidableEq

/-- `RJS_Promise` -/
structure Prom where
  state : State
  fulfillReactions : List Reaction
  rejectReactions : List Reaction
deriving DecidableEq

inductive Job where
  /-- `promise_then_job` -/
  | thenJob (promise : Nat) (thenable : Val)
  /-- `promise_reaction_job` -/
  | reactionJob (promise : Nat) (r : Reaction) (arg : Val)
deriving DecidableEq

structure St where
  /-- the promises; those from `next` on have not been created -/
  proms : Nat → Prom
  next : Nat
  /-- the status records (`RJS_PromiseStatus`, lines 42-46): promise, resolved -/
  status : List (Nat × Bool)
  jobs : List Job
  /-- calls of `promise_resolve_nf` which wait for `rjs_get(res, "then")`: promise, value -/
  gets : List (Nat × Val)
  /-- reaction jobs whose handler is running -/
  running : List (Reaction × Val)
  /-- ghost: all reaction jobs queued so far: promise, reaction, argument -/
  log : List (Nat × Reaction × Val)
  /-- ghost: all reaction jobs started so far -/
  started : List (Nat × Reaction × Val)

def init : St := ⟨fun _ => ⟨.pending, [], []⟩, 0, [], [], [], [], [], []⟩

def setProm (f : Nat → Prom) (p : Nat) (x : Prom) : Nat → Prom := fun q => if q = p then x else f q

/-- `trigger_promise_reactions` (lines 266-302). -/
def trigger (s : St) (p : Nat) (l : List Reaction) (v : Val) : St :=
  { s with
    jobs := s.jobs ++ l.map fun r => .reactionJob p r v,
    log := s.log ++ l.map fun r => (p, r, v) }

/-- `fulfill_promise` (lines 305-328).  `none`: the assertion fails. -/
def fulfillPromise (s : St) (p : Nat) (v : Val) : Option St :=
  if (s.proms p).state = .pending then
    some (trigger { s with proms := setProm s.proms p ⟨.fulfilled v, [], []⟩ } p
      (s.proms p).fulfillReactions v)
  else none

/-- `reject_promise` (lines 331-357). -/
def rejectPromise (s : St) (p : Nat) (v : Val) : Option St :=
  if (s.proms p).state = .pending then
    some (trigger { s with proms := setProm s.proms p ⟨.rejected v, [], []⟩ } p
      (s.proms p).rejectReactions v)
  else none

/-- `promise_resolve_nf` (lines 380-435) up to the `rjs_get` of `then`. -/
def callResolve (s : St) (i : Nat) (res : Val) : Option St :=
  match s.status[i]? with
  | none => some s
  | some (p, resolved) =>
    if resolved then some s
    else
      let s := { s with status := s.status.set i (p, true) }
      if res = .promise p then rejectPromise s p .selfError
      else if !res.isObject then fulfillPromise s p res
      else some { s with gets := s.gets ++ [(p, res)] }

/-- What `rjs_get(res, "then")` gives. -/
inductive GetThen where
  | throws (e : Val)
  | notCallable
  | callable
deriving DecidableEq

/-- The rest of `promise_resolve_nf` (lines 410-431). -/
def getThenDone (s : St) (i : Nat) (o : GetThen) : Option St :=
  match s.gets[i]? with
  | none => some s
  | some (p, res) =>
    let s := { s with gets := s.gets.eraseIdx i }
    match o with
    | .throws e => rejectPromise s p e
    | .notCallable => fulfillPromise s p res
    | .callable => some { s with jobs := s.jobs ++ [.thenJob p res] }

/-- `promise_reject_nf` (lines 438-452). -/
def callReject (s : St) (i : Nat) (reason : Val) : Option St :=
  match s.status[i]? with
  | none => some s
  | some (p, resolved) =>
    if resolved then some s
    else rejectPromise { s with status := s.status.set i (p, true) } p reason

/-- `rjs_perform_proimise_then` (lines 696-764). -/
def performThen (s : St) (p id : Nat) (onFulfilled onRejected : Bool) (cap : Option Nat) : St :=
  let f : Reaction := ⟨id, .fulfill, onFulfilled, cap⟩
  let r : Reaction := ⟨id, .reject, onRejected, cap⟩
  match (s.proms p).state with
  | .pending =>
    let x : Prom :=
      ⟨.pending, (s.proms p).fulfillReactions ++ [f], (s.proms p).rejectReactions ++ [r]⟩
    { s with proms := setProm s.proms p x }
  | .fulfilled v => trigger s p [f] v
  | .rejected v => trigger s p [r] v

/-- What running a handler gives. -/
inductive Outcome where
  | returns (v : Val)
  | throws (v : Val)
deriving DecidableEq

inductive Event where
  /-- `rjs_promise_new` (lines 463-523) up to the call of the executor. -/
  | newPromise
  | resolve (i : Nat) (v : Val)
  | reject (i : Nat) (v : Val)
  | getThen (i : Nat) (o : GetThen)
  | then_ (p id : Nat) (onFulfilled onRejected : Bool) (cap : Option Nat)
  /-- the next job is taken from the queue (`promise_then_job`, lines 184-209, up to the call
  of `then`; `promise_reaction_job`, lines 234-263, up to the call of the handler) -/
  | runJob
  /-- a handler returns and the reaction job goes on (lines 245-260) -/
  | handlerDone (i : Nat) (o : Outcome)
deriving DecidableEq

/-- Lines 245-252: the outcome of a reaction; a missing handler passes the argument on. -/
def reactionOutcome (r : Reaction) (arg : Val) (o : Outcome) : Outcome :=
  if r.handler then o
  else match r.type with
    | .fulfill => .returns arg
    | .reject => .throws arg

def step (s : St) : Event → Option St
  | .newPromise => some { s with next := s.next + 1, status := s.status ++ [(s.next, false)] }
  | .resolve i v => callResolve s i v
  | .reject i v => callReject s i v
  | .getThen i o => getThenDone s i o
  | .then_ p id f r cap => some (performThen s p id f r cap)
  | .runJob =>
    match s.jobs with
    | [] => some s
    | .thenJob p _ :: js => some { s with jobs := js, status := s.status ++ [(p, false)] }
    | .reactionJob p r v :: js =>
      some { s with jobs := js, running := s.running ++ [(r, v)],
                    started := s.started ++ [(p, r, v)] }
  | .handlerDone i o =>
    match s.running[i]? with
    | none => some s
    | some (r, arg) =>
      let s := { s with running := s.running.eraseIdx i }
      match r.cap with
      | none => some s
      | some c =>
        match reactionOutcome r arg o with
        | .returns v => callResolve s c v
        | .throws v => callReject s c v

def run : St → List Event → Option St
  | s, [] => some s
  | s, e :: es =>
    match step s e with
    | none => none
    | some s => run s es

end Verif.Promise
