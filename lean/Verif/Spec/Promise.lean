import Verif.Model.Promise
/-
What is expected of the reactions, in terms of the `then` calls of a history only.
-/
namespace Verif.Promise.Spec

/-- A `then` call. -/
structure Call where
  id : Nat
  onFulfilled : Bool
  onRejected : Bool
  cap : Option Nat

/-- The `then` calls made on promise `p`, in order. -/
def calls (p : Nat) : List Event → List Call
  | [] => []
  | .then_ q id f r cap :: es => if q = p then ⟨id, f, r, cap⟩ :: calls p es else calls p es
  | _ :: es => calls p es

def Call.fulfill (c : Call) : Reaction := ⟨c.id, .fulfill, c.onFulfilled, c.cap⟩
def Call.reject (c : Call) : Reaction := ⟨c.id, .reject, c.onRejected, c.cap⟩

/-- The reaction jobs which must have been queued for a promise in the given state: one for
each `then` call, in the order of the calls, of the kind which fits the state and with the
result of the promise as argument; none while it is pending. -/
def expected (st : State) (cs : List Call) : List (Reaction × Val) :=
  match st with
  | .pending => []
  | .fulfilled v => cs.map fun c => (c.fulfill, v)
  | .rejected v => cs.map fun c => (c.reject, v)

/-- The reaction jobs queued for promise `p`. -/
def queuedFor (p : Nat) (log : List (Nat × Reaction × Val)) : List (Reaction × Val) :=
  (log.filter fun e => e.1 = p).map Prod.snd

/-- The reaction jobs among the jobs of a queue. -/
def reactionsOf : List Job → List (Nat × Reaction × Val)
  | [] => []
  | .reactionJob p r v :: l => (p, r, v) :: reactionsOf l
  | .thenJob _ _ :: l => reactionsOf l

end Verif.Promise.Spec
