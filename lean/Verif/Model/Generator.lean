/-!
# Generators

Model of `src/lib/rjs_generator_opt.c` (the synchronous half), `rjs_script_func_call`
(`src/lib/rjs_script.c` 902-972) and the commands `yield`, `yield_resume`, `yield_iter_start` and
`yield_iter_next` (`src/lib/rjs_bc_call.c` 350-385, 1251-1281).

The code of the generator functions and of their callers is not part of the model: what they do is
given by the operations, in any order a program could perform them.  An operation that is not
possible (say, a `yield` of a generator that is not running) is answered by `Fault.stuck`, which is
not a fault of the engine; `Fault.assert` is.

Simplified: the brand is always the empty string, as it is for generator functions; a result
object is a pair (`value`, `done`); getters of the result object that throw are given as a thrown
result of the delegated call.
-/

namespace Verif.Gen

/-- ECMAScript values; 0 is undefined. -/
abbrev Val := Nat

/-- The value undefined. -/
def undef : Val := 0

/-- What the model may stop with: a failed assertion, or an operation that cannot happen. -/
inductive Fault where
  | assert | stuck
  deriving DecidableEq, Repr

/-- `RJS_GeneratorState` (include/rjs_generator.h:39-46). -/
inductive Phase where
  | start | yielded | executing | completed
  deriving DecidableEq, Repr

/-- `RJS_GeneratorRequestType`: next, return, throw. -/
inductive Kind where
  | next | ret | thr
  deriving DecidableEq, Repr

/-- Where the byte code of a suspended generator goes on: at its beginning, at the `yield_resume`
after a `yield` (rjs_bc_gen.c:333-339), or at the `yield_iter_next` of a `yield*`, which is not
left before the iterator is done (rjs_bc_call.c:373-380). -/
inductive Pos where
  | begin | resume | star
  deriving DecidableEq, Repr

/-- `RJS_Generator` (include/rjs_generator.h:62-76): the state, and the request received. -/
structure Gen where
  phase : Phase
  kind : Kind
  val : Val
  pos : Pos
  deriving DecidableEq, Repr

/-- What runs in a generator's context: its code, or a method of the iterator of a `yield*`. -/
inductive Mode where
  | body | delegate
  deriving DecidableEq, Repr

/-- A context on the stack: the generator, and the number of the call it answers (the number of
the operation; this only records which C call is the caller, rjs_generator_opt.c:1010-1016). -/
structure Frame where
  gen : Nat
  call : Nat
  mode : Mode
  deriving DecidableEq, Repr

/-- The state: generators, contexts running (innermost first), operations so far. -/
structure State where
  gens : List Gen
  stack : List Frame
  time : Nat
  deriving DecidableEq, Repr

/-- A result object (`rjs_create_iter_result_object`). -/
structure Obj where
  value : Val
  done : Bool
  deriving DecidableEq, Repr

/-- The answer to a call: a result object, an error thrown, a TypeError of the engine. -/
inductive Answer where
  | result (o : Obj) | threw (e : Val) | typeError
  deriving DecidableEq, Repr

/-- How the call of a method of the iterator of a `yield*` ends (rjs_generator_opt.c:1284-1385):
it throws, gives something that is not an object, gives a result object, or there is no such
method; in that case a generator that was to be thrown into closes the iterator, which may throw
an error. -/
inductive Result where
  | threw (e : Val) | notObject | object (o : Obj) | noMethod (closing : Option Val)
  deriving DecidableEq, Repr

/-- The operations. -/
inductive Op where
  /-- A generator function is called: `generator_start` (rjs_generator_opt.c:917-967). -/
  | create
  /-- `next`, `return` or `throw` of generator `g` is called (rjs_generator_object_inc.c:64-88). -/
  | call (k : Kind) (g : Nat) (v : Val)
  /-- The code of `g` yields `v`. -/
  | yield (g : Nat) (v : Val)
  /-- The code of `g` ends by returning `v`. -/
  | ret (g : Nat) (v : Val)
  /-- The code of `g` ends by throwing `e`. -/
  | throw (g : Nat) (e : Val)
  /-- The code of `g` comes to a `yield*`, and has got the iterator. -/
  | star (g : Nat)
  /-- The method of the iterator called by the `yield*` of `g` has ended. -/
  | result (g : Nat) (r : Result)
  deriving DecidableEq, Repr

/-- What the engine does in answer: a new generator, an answer to a call, or it lets the code of
the generator go on: from the beginning, with the request received at a `yield`, with the value, an
error (`none` is a TypeError) or a return at a `yield*`, or it calls the method of the iterator. -/
inductive Out where
  | created (g : Nat)
  | answer (call : Nat) (a : Answer)
  | enter
  | deliver (k : Kind) (v : Val)
  | delegate (k : Kind) (v : Val)
  | starValue (v : Val)
  | starThrow (e : Option Val)
  | starReturn (v : Val)
  deriving DecidableEq, Repr

/-- `generator_start` (rjs_generator_opt.c:917-967). -/
def newGen : Gen := { phase := .start, kind := .next, val := undef, pos := .begin }

/-- `generator_validate` (rjs_generator_opt.c:971-987): `none` is a TypeError. -/
def validate (s : State) (g : Nat) : Option Gen :=
  match s.gens[g]? with
  | none => none
  | some x => if x.phase = .executing then none else some x

/-- Resume the context: the state becomes executing, the context is pushed, the request is stored
(rjs_generator_opt.c:1008-1012, 1047-1055, rjs_bc_call.c:1253-1280), and the byte code goes on
where it stopped: `rjs_yield_resume` (rjs_generator_opt.c:1200-1240) and
`generator_iterator_yield_next` (1284-1286, 1312-1316, 1348-1357). -/
def enter (s : State) (g : Nat) (x : Gen) (k : Kind) (v : Val) : State × Out :=
  let x := { x with phase := .executing, kind := k, val := v }
  let s := { s with gens := s.gens.set g x }
  match x.pos with
  | .begin => ({ s with stack := ⟨g, s.time, .body⟩ :: s.stack }, .enter)
  | .resume => ({ s with stack := ⟨g, s.time, .body⟩ :: s.stack }, .deliver x.kind x.val)
  | .star => ({ s with stack := ⟨g, s.time, .delegate⟩ :: s.stack }, .delegate x.kind x.val)

/-- `generator_resume` (rjs_generator_opt.c:991-1017). -/
def resume (s : State) (g : Nat) (v : Val) : Except Fault (State × Out) :=
  match validate s g with
  | none => .ok (s, .answer s.time .typeError)
  | some x =>
    if x.phase = .completed then .ok (s, .answer s.time (.result ⟨undef, true⟩))
    else if x.phase = .start ∨ x.phase = .yielded then .ok (enter s g x .next v)
    else .error .assert

/-- `generator_resume_abrupt` (rjs_generator_opt.c:1021-1060). -/
def resumeAbrupt (s : State) (g : Nat) (isRet : Bool) (v : Val) : Except Fault (State × Out) :=
  match validate s g with
  | none => .ok (s, .answer s.time .typeError)
  | some x =>
    let x := if x.phase = .start then { x with phase := .completed } else x
    let s := { s with gens := s.gens.set g x }
    if x.phase = .completed then
      if isRet then .ok (s, .answer s.time (.result ⟨v, true⟩))
      else .ok (s, .answer s.time (.threw v))
    else if x.phase = .yielded then .ok (enter s g x (if isRet then .ret else .thr) v)
    else .error .assert

/-- Leave the context of `g` (rjs_generator_opt.c:1014, 1057) with the generator in a state, and
answer the call. -/
def leave (s : State) (f : Frame) (rest : List Frame) (x : Gen) (a : Answer) : State × Out :=
  ({ s with gens := s.gens.set f.gen x, stack := rest }, .answer f.call a)

/-- The context running must be that of `g`, in the mode given. -/
def top (s : State) (g : Nat) (m : Mode) : Except Fault (Frame × List Frame × Gen) :=
  match s.stack with
  | [] => .error .stuck
  | f :: rest =>
    if f.gen = g ∧ f.mode = m then
      match s.gens[g]? with
      | some x => .ok (f, rest, x)
      | none => .error .stuck
    else .error .stuck

/-- The `yield*` is left, and the code of the generator goes on. -/
def back (s : State) (f : Frame) (rest : List Frame) (o : Out) : State × Out :=
  ({ s with stack := { f with mode := .body } :: rest }, o)

/-- `generator_iterator_yield_next` after the call of the method (rjs_generator_opt.c:1284-1385):
the request received decides which method it was. -/
def starResult (s : State) (f : Frame) (rest : List Frame) (x : Gen) (r : Result) :
    Except Fault (State × Out) :=
  match x.kind, r with
  | _, .threw e => .ok (back s f rest (.starThrow (some e)))
  | _, .notObject => .ok (back s f rest (.starThrow none))
  | .next, .object o =>
    if o.done then .ok (back s f rest (.starValue o.value))
    else .ok (leave s f rest { x with phase := .yielded, pos := .star } (.result o))
  | .thr, .object o =>
    if o.done then .ok (back s f rest (.starValue o.value))
    else .ok (leave s f rest { x with phase := .yielded, pos := .star } (.result o))
  | .ret, .object o =>
    if o.done then .ok (back s f rest (.starReturn o.value))
    else .ok (leave s f rest { x with phase := .yielded, pos := .star } (.result o))
  | .next, .noMethod _ => .error .stuck
  | .thr, .noMethod none => .ok (back s f rest (.starThrow none))
  | .thr, .noMethod (some e) => .ok (back s f rest (.starThrow (some e)))
  | .ret, .noMethod _ => .ok (back s f rest (.starReturn x.val))

/-- One operation, without the clock. -/
def act (s : State) : Op → Except Fault (State × Out)
  | .create => .ok ({ s with gens := s.gens ++ [newGen] }, .created s.gens.length)
  | .call .next g v => resume s g v
  | .call .ret g v => resumeAbrupt s g true v
  | .call .thr g v => resumeAbrupt s g false v
  | .yield g v => do
    -- `rjs_yield` (rjs_generator_opt.c:1169-1188) and `bc_yield`
    let (f, rest, x) ← top s g .body
    .ok (leave s f rest { x with phase := .yielded, pos := .resume } (.result ⟨v, false⟩))
  | .ret g v => do
    -- `rjs_script_func_call` (rjs_script.c:918-953)
    let (f, rest, x) ← top s g .body
    .ok (leave s f rest { x with phase := .completed } (.result ⟨v, true⟩))
  | .throw g e => do
    let (f, rest, x) ← top s g .body
    .ok (leave s f rest { x with phase := .completed } (.threw e))
  | .star g => do
    -- `rjs_iterator_yield_start` (rjs_generator_opt.c:1250-1271), then `yield_iter_next`
    let (f, rest, x) ← top s g .body
    let x := { x with kind := .next, val := undef, pos := .star }
    .ok ({ s with gens := s.gens.set g x, stack := { f with mode := .delegate } :: rest },
      .delegate x.kind x.val)
  | .result g r => do
    let (f, rest, x) ← top s g .delegate
    starResult s f rest x r

/-- One operation. -/
def step (s : State) (op : Op) : Except Fault (State × Out) := do
  let (s, o) ← act s op
  .ok ({ s with time := s.time + 1 }, o)

/-- A run: what the engine did, in order. -/
def run (s : State) : List Op → Except Fault (State × List Out)
  | [] => .ok (s, [])
  | op :: ops => do
    let (s, o) ← step s op
    let (s, l) ← run s ops
    .ok (s, o :: l)

/-- The start: no generators. -/
def init : State := { gens := [], stack := [], time := 0 }

end Verif.Gen
