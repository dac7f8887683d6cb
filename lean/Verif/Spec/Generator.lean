import Verif.Model.Generator

/-!
What a generator is to its callers, without the engine: a body that is a function of the requests
it has received, and a session with three states.
-/

namespace Verif.Gen.Spec

/-- What the code of a generator does when it is let go on. -/
inductive Act where
  | yield (v : Val) | ret (v : Val) | throw (e : Val)
  deriving DecidableEq, Repr

/-- The code of a generator: what it does next, given the requests received at its `yield`s. -/
abbrev Body := List (Kind × Val) → Act

/-- A session: not begun, waiting at a `yield` with the requests received so far, or finished. -/
inductive Session where
  | fresh | active (h : List (Kind × Val)) | finished
  deriving DecidableEq, Repr

/-- The generator goes on, having received `h`. -/
def go (b : Body) (h : List (Kind × Val)) : Session × Answer :=
  match b h with
  | .yield v => (.active h, .result ⟨v, false⟩)
  | .ret v => (.finished, .result ⟨v, true⟩)
  | .throw e => (.finished, .threw e)

/-- What a finished generator answers. -/
def finished : Kind × Val → Answer
  | (.next, _) => .result ⟨undef, true⟩
  | (.ret, v) => .result ⟨v, true⟩
  | (.thr, e) => .threw e

/-- One call. -/
def call (b : Body) : Session → Kind × Val → Session × Answer
  | .fresh, (.next, _) => go b []
  | .fresh, c => (.finished, finished c)
  | .active h, c => go b (h ++ [c])
  | .finished, c => (.finished, finished c)

/-- The answers to a list of calls. -/
def session (b : Body) (x : Session) : List (Kind × Val) → List Answer
  | [] => []
  | c :: cs => (call b x c).2 :: session b (call b x c).1 cs

/-- What a `yield*` does once the method of the iterator it has called for the request `k`, `v` has
ended with `r` (ECMA-262 15.5.5, `yield *`): `none` if the method missing is `next`, which is an
error found before. The call `c` is the one to be answered. -/
def star (c : Nat) (k : Kind) (v : Val) : Result → Option Out
  | .threw e => some (.starThrow (some e))
  | .notObject => some (.starThrow none)
  | .object o =>
    some (if o.done = false then .answer c (.result o)
      else if k = .ret then .starReturn o.value else .starValue o.value)
  | .noMethod e => match k with
    | .next => none
    | .ret => some (.starReturn v)
    | .thr => some (.starThrow e)

end Verif.Gen.Spec
