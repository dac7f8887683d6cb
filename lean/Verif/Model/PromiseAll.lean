/-
Model of `Promise.all`, `Promise.allSettled` and `Promise.any`
(`/repo/src/lib/rjs_promise_object_inc.c`, lines 77-700).

The three loops have the same shape.  The state is the shared record `RJS_PromiseAll` with
the `called` flags of the element functions (`RJS_PromiseSingle`).  Between two steps of
the loop, and after it, arbitrary JavaScript code may run and may call any element function
which exists any number of times; this is expressed by the events.  What the calls of the
capability's functions do is not modelled here (see `Verif.Model.Promise`), only that they
are made.  Reference counts are left out, and `Array.prototype` is taken to have no index
accessors (`rjs_set_index` on the private array would call them).
-/
namespace Verif.PromiseAll

inductive Kind where
  | all
  | allSettled
  | any
deriving DecidableEq

/-- An entry of the array `values`. -/
inductive Entry where
  | undef
  /-- the argument itself (`all`, `any`) -/
  | plain (x : Nat)
  /-- `{status: "fulfilled", value: x}` -/
  | fulfilled (x : Nat)
  /-- `{status: "rejected", reason: x}` -/
  | rejected (x : Nat)
deriving DecidableEq

inductive Phase where
  | idle
  /-- `values[index]` has been set, the element function does not exist yet -/
  | pushed
  | finished
  | failed
deriving DecidableEq

structure St where
  phase : Phase
  /-- `left` -/
  left : Nat
  values : List Entry
  /-- the `called` flags of the element functions: fulfil, reject -/
  called : List (Bool × Bool)
  /-- calls of the capability's function with the array: what the array was -/
  out : List (List Entry)
  /-- whether `left` has been decremented when it was zero -/
  wrapped : Bool
deriving DecidableEq

/-- `promise_all_new(rt, pc, values, 1)` (lines 119-140). -/
def init : St := ⟨.idle, 1, [], [], [], false⟩

/-- The element functions of the kinds: `onFulfilled`, `onRejected`. -/
def Kind.has : Kind → Bool → Bool
  | .all, b => b
  | .allSettled, _ => true
  | .any, b => !b

def Kind.entry : Kind → Bool → Nat → Entry
  | .allSettled, true, x => .fulfilled x
  | .allSettled, false, x => .rejected x
  | _, _, x => .plain x

inductive Event where
  /-- an iterator step gives a value: line 274 (468, 633) -/
  | push
  /-- lines 279-282 (473-479, 638-641) -/
  | elem
  /-- anything in the loop throws: lines 250-285 -/
  | fail
  /-- the iterator is done: lines 256-266 (450-460, 612-625) -/
  | finish
  /-- element function `b` (true: fulfil, false: reject) of element `i` is called -/
  | call (i : Nat) (b : Bool) (x : Nat)
deriving DecidableEq

/-- `left --` and, when it becomes zero, the call with `values`. -/
def decr (s : St) : St :=
  let s := if s.left = 0 then { s with wrapped := true, left := 2 ^ 64 - 1 }
    else { s with left := s.left - 1 }
  if s.left = 0 then { s with out := s.out ++ [s.values] } else s

def flag (b : Bool) (c : Bool × Bool) : Bool := if b then c.1 else c.2
def setFlag (b : Bool) (c : Bool × Bool) : Bool × Bool := if b then (true, c.2) else (c.1, true)

/-- The element functions `promise_all_resolve` (lines 181-207),
`promise_all_settled_resolve` (345-382), `promise_all_settled_reject` (384-421) and
`promise_any_reject` (542-579).  In `promise_all_resolve` the counter is decremented before
the array is written; nothing can happen in between. -/
def callElem (k : Kind) (s : St) (i : Nat) (b : Bool) (x : Nat) : St :=
  match s.called[i]? with
  | none => s
  | some c =>
    if !k.has b then s
    else if flag b c then s
    else
      decr { s with
        called := s.called.set i (setFlag b c), values := s.values.set i (k.entry b x) }

def step (k : Kind) (s : St) : Event → St
  | .push => if s.phase = .idle then { s with phase := .pushed, values := s.values ++ [.undef] } else s
  | .elem =>
    if s.phase = .pushed then
      { s with phase := .idle, left := s.left + 1, called := s.called ++ [(false, false)] }
    else s
  | .fail => if s.phase = .idle ∨ s.phase = .pushed then { s with phase := .failed } else s
  | .finish => if s.phase = .idle then decr { s with phase := .finished } else s
  | .call i b x => callElem k s i b x

def run (k : Kind) : St → List Event → St
  | s, [] => s
  | s, e :: es => run k (step k s e) es

end Verif.PromiseAll
