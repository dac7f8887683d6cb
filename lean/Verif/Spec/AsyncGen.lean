import Verif.Model.AsyncGen

/-!
What an async generator is to its callers, without the engine and without the queue: code that is a
function of what it has received, which serves one call at a time (ECMA-262 27.6.3, 15.5.5).
-/

namespace Verif.AsyncGen.Spec

/-- How a promise is settled. -/
inductive Outcome where
  | ok (v : Val) | err (e : Val)
  deriving DecidableEq, Repr

/-- What the code of the generator is told: it begins; its `yield` ends with a request; the value of
its `yield` was a promise that is rejected; its `await` ends; the method of the iterator of its
`yield*` is called; its `yield*` ends. -/
inductive Ev where
  | enter
  | resume (k : Kind) (v : Val)
  | yieldFailed (e : Val)
  | awaited (v : Val)
  | awaitFailed (e : Val)
  | delegate (k : Kind) (v : Val)
  | starValue (v : Val)
  | starThrow (e : Option Val)
  | starReturn (v : Val)
  deriving DecidableEq, Repr

/-- What the code does next, with the settling of the promise it waits for; the last three are what
the iterator of a `yield*` does. -/
inductive Act where
  | await (o : Outcome)
  | yield (o : Outcome)
  | ret (v : Val)
  | throw (e : Val)
  | star
  | starThrew (e : Val)
  | starAwait (has : Bool) (o : Outcome) (r : Res)
  | starClosed
  deriving DecidableEq, Repr

/-- The code of a generator. -/
abbrev Body := List Ev → Act

/-- The code itself runs, or the iterator of a `yield*` does, for a request. -/
inductive Mode where
  | body | iter (k : Kind)
  deriving DecidableEq, Repr

/-- A session between calls: not begun, at a `yield`, at a `yield*`, finished. -/
inductive Session where
  | fresh | active (h : List Ev) | star (h : List Ev) | finished
  deriving DecidableEq, Repr

/-- What comes of one act: it goes on, a call is answered, or the act is impossible. -/
inductive Step where
  | go (ev : Ev) (m : Mode)
  | answer (x : Session) (a : Answer)
  | impossible
  deriving DecidableEq, Repr

/-- What comes of the promise of an iterator's method called for a request. -/
def result (h : List Ev) (k : Kind) : Res → Step
  | .notObject => .go (.starThrow none) .body
  | .threw e => .go (.starThrow (some e)) .body
  | .object o =>
    if o.done = false then .answer (.star h) (.result ⟨o.value, false⟩)
    else if k = .ret then .go (.starReturn o.value) .body
    else .go (.starValue o.value) .body

/-- One act of the code, having received `h`. -/
def react (h : List Ev) : Mode → Act → Step
  | .body, .await (.ok v) => .go (.awaited v) .body
  | .body, .await (.err e) => .go (.awaitFailed e) .body
  | .body, .yield (.ok v) => .answer (.active h) (.result ⟨v, false⟩)
  | .body, .yield (.err e) => .go (.yieldFailed e) .body
  | .body, .ret v => .answer .finished (.result ⟨v, true⟩)
  | .body, .throw e => .answer .finished (.rejected e)
  | .body, .star => .go (.delegate .next undef) (.iter .next)
  | .iter _, .starThrew e => .go (.starThrow (some e)) .body
  | .iter .thr, .starClosed => .go (.starThrow none) .body
  | .iter _, .starAwait _ (.err e) _ => .go (.starThrow (some e)) .body
  | .iter k, .starAwait has (.ok v) r =>
    if has = true ∨ k = .next then result h k r
    else if k = .thr then .go (.starThrow none) .body
    else .go (.starReturn v) .body
  | _, _ => .impossible

/-- The code goes on until it answers. -/
inductive Goes (b : Body) : Mode → List Ev → Session → Answer → Prop where
  | answer {m : Mode} {h : List Ev} {x : Session} {a : Answer} :
      react h m (b h) = .answer x a → Goes b m h x a
  | go {m m' : Mode} {h : List Ev} {ev : Ev} {x : Session} {a : Answer} :
      react h m (b h) = .go ev m' → Goes b m' (h ++ [ev]) x a → Goes b m h x a

/-- A call; for a `return`, how the promise of its value is settled. -/
structure Call where
  kind : Kind
  val : Val
  out : Outcome
  deriving DecidableEq, Repr

/-- What the code receives: the value of a `return` is awaited. -/
def Call.received (c : Call) : Kind × Val :=
  match c.kind, c.out with
  | .ret, .ok w => (.ret, w)
  | .ret, .err e => (.thr, e)
  | k, _ => (k, c.val)

/-- What a `return` of a generator not begun or finished is answered. -/
def Outcome.close : Outcome → Answer
  | .ok v => .result ⟨v, true⟩
  | .err e => .rejected e

/-- One call is served. `w` is the value of the answer to a `next` of a finished generator. -/
inductive Serve (b : Body) (W : Val → Val → Prop) : Session → Call → Session → Answer → Prop where
  | begin {v : Val} {o : Outcome} {x : Session} {a : Answer} : Goes b .body [.enter] x a →
      Serve b W .fresh ⟨.next, v, o⟩ x a
  | active {h : List Ev} {c : Call} {x : Session} {a : Answer} :
      Goes b .body (h ++ [.resume c.received.1 c.received.2]) x a → Serve b W (.active h) c x a
  | star {h : List Ev} {c : Call} {x : Session} {a : Answer} :
      Goes b (.iter c.received.1) (h ++ [.delegate c.received.1 c.received.2]) x a →
      Serve b W (.star h) c x a
  | ret {v : Val} {o : Outcome} {x : Session} : x = .fresh ∨ x = .finished →
      Serve b W x ⟨.ret, v, o⟩ .finished o.close
  | thr {v : Val} {o : Outcome} {x : Session} : x = .fresh ∨ x = .finished →
      Serve b W x ⟨.thr, v, o⟩ .finished (.rejected v)
  | next {v w : Val} {o : Outcome} : W v w →
      Serve b W .finished ⟨.next, v, o⟩ .finished (.result ⟨w, true⟩)

/-- The calls are served one after the other. -/
inductive Serves (b : Body) (W : Val → Val → Prop) : Session → List Call → List Answer → Session → Prop where
  | nil {x : Session} : Serves b W x [] [] x
  | cons {x y z : Session} {c : Call} {a : Answer} {cs : List Call} {as : List Answer} :
      Serve b W x c y a → Serves b W y cs as z → Serves b W x (c :: cs) (a :: as) z

end Verif.AsyncGen.Spec

/-! The words the theorems use about runs of the model. -/

namespace Verif.AsyncGen

/-- The requests not answered: the first of the queue is answered while its promise is resolved. -/
def State.pending (s : State) : List Req :=
  match s.stack with
  | .completing _ _ :: _ => s.queue.tail
  | _ => s.queue

/-- Other code runs while the last promise of the generator's code, or one after it, is resolved. -/
def State.finishing (s : State) : Prop :=
  ∃ f, f ∈ s.stack ∧ match f with
    | .completing _ .finish => True
    | .completing _ .drain => True
    | _ => False

/-- The calls the theorems are about: `return` is not called while other code runs because a last
promise is resolved. -/
def Tame (s : State) : Op → Prop
  | .call .ret _ _ => ¬ s.finishing
  | _ => True

/-- No call at all is made then. -/
def Calm (s : State) : Op → Prop
  | .call _ _ _ => ¬ s.finishing
  | _ => True

/-- The calls made, in order. -/
def Op.call? : Op → Option (Kind × Val)
  | .call k v _ => some (k, v)
  | _ => none

/-- Something holds before every operation of a run. -/
def Along (P : State → Op → Prop) : State → List Op → Prop
  | _, [] => True
  | s, op :: ops => P s op ∧ match step s op with
    | .ok (s', _) => Along P s' ops
    | .error _ => True

/-- An answer that says that the generator is finished. -/
def Final : Answer → Prop
  | .result o => o.done = true
  | .rejected _ => True

/-- The answer `a` to the call `c` may be given by a finished generator. -/
def Late (c : Kind × Val) (a : Answer) : Prop :=
  match c.1 with
  | .next => a = .result ⟨undef, true⟩ ∨ a = .result ⟨c.2, true⟩
  | .thr => a = .rejected c.2
  | .ret => Final a

open Spec in
/-- The promise awaited is settled as the code of the generator (or the caller of `return`) says. -/
def Settles (b : Body) (out : Nat → Outcome) (s : State) (h : List Ev) (o : Outcome) (r : Res) : Prop :=
  match s.op with
  | some .command => b h = .await o
  | some .yieldV => b h = .yield o
  | some .yieldReturn => ∀ x rest, s.queue = x :: rest → out x.id = o
  | some .iterReturn => ∀ x rest, s.queue = x :: rest → out x.id = o
  | _ => ∃ has, b h = .starAwait has o r

open Spec in
/-- The operation is what the code `b` does, having received `h`; `out` says how the promise of the
value of a `return` is settled. Calls are made as one likes. -/
def Obeys (b : Body) (out : Nat → Outcome) (s : State) (h : List Ev) : Op → Prop
  | .call _ _ bad => bad = none
  | .back => True
  | .await => ∃ o, b h = .await o
  | .yield => ∃ o, b h = .yield o
  | .ret v => b h = .ret v
  | .throw e => b h = .throw e
  | .star => b h = .star
  | .starThrew e => b h = .starThrew e
  | .starAwait has => ∃ o r, b h = .starAwait has o r
  | .starClosed => b h = .starClosed
  | .fulfill v r => Settles b out s h (.ok v) r
  | .reject e => ∃ r, Settles b out s h (.err e) r
  | .returned v => ∀ x rest, s.queue = x :: rest → out x.id = .ok v
  | .returnFailed e => ∀ x rest, s.queue = x :: rest → out x.id = .err e

open Spec in
/-- What the code is told. -/
def Out.ev : Out → List Ev
  | .none => []
  | .enter => [.enter]
  | .deliver k v => [.resume k v]
  | .yieldFailed e => [.yieldFailed e]
  | .awaited v => [.awaited v]
  | .awaitFailed e => [.awaitFailed e]
  | .delegate k v => [.delegate k v]
  | .starValue v => [.starValue v]
  | .starThrow e => [.starThrow e]
  | .starReturn v => [.starReturn v]

open Spec in
/-- A run of a generator with the code `b`, from a state in which the code has received `h`. -/
inductive Driven (b : Body) (out : Nat → Outcome) : State → List Ev → List Op → State → List Ev → Prop where
  | nil {s : State} {h : List Ev} : Driven b out s h [] s h
  | cons {s s1 s2 : State} {h h2 : List Ev} {op : Op} {ops : List Op} {o : Out} : Calm s op →
      Obeys b out s h op → step s op = .ok (s1, o) → Driven b out s1 (h ++ o.ev) ops s2 h2 →
      Driven b out s h (op :: ops) s2 h2

open Spec in
/-- The calls of a run, with what is known about the values of the `return`s. -/
def calls (out : Nat → Outcome) : Nat → List Op → List Call
  | _, [] => []
  | n, .call k v _ :: ops => ⟨k, v, out n⟩ :: calls out (n + 1) ops
  | n, _ :: ops => calls out n ops

end Verif.AsyncGen
