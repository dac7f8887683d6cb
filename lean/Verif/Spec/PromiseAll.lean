import Verif.Model.PromiseAll
/-
What `Promise.all` and its relatives must do: there is a slot for each element of the
iterable, the first call of a callback of the element fills the slot, and when the
iteration has come to its end and all slots are filled the results are delivered, once, in
the order of the iteration.
-/
namespace Verif.PromiseAll.Spec

structure S where
  /-- an element has been taken from the iterator and `then` not yet been called -/
  begun : Bool
  slots : List (Option Entry)
  finished : Bool
  failed : Bool

def init : S := ⟨false, [], false, false⟩

def over (s : S) : Bool := s.finished || s.failed

/-- The entry which the callback `b` of an element stores. -/
def entry : Kind → Bool → Nat → Option Entry
  | .all, true, x => some (.plain x)
  | .all, false, _ => none
  | .allSettled, true, x => some (.fulfilled x)
  | .allSettled, false, x => some (.rejected x)
  | .any, true, _ => none
  | .any, false, x => some (.plain x)

/-- Fill slot `i` if it is empty. -/
def fill (l : List (Option Entry)) (i : Nat) (e : Entry) : List (Option Entry) :=
  l.modify i fun o => some (o.getD e)

def step (k : Kind) (s : S) : Event → S
  | .push => if over s || s.begun then s else { s with begun := true }
  | .elem => if !over s && s.begun then { s with begun := false, slots := s.slots ++ [none] } else s
  | .fail => if over s then s else { s with failed := true }
  | .finish => if over s || s.begun then s else { s with finished := true }
  | .call i b x =>
    match entry k b x with
    | none => s
    | some e => { s with slots := fill s.slots i e }

def run (k : Kind) : S → List Event → S
  | s, [] => s
  | s, e :: es => run k (step k s e) es

/-- The deliveries made: none, or one with the contents of all slots. -/
def delivered (s : S) : List (List Entry) :=
  if s.finished then
    if s.slots.all Option.isSome then [s.slots.map fun o => o.getD .undef] else []
  else []

/-- No element calls both of its callbacks. -/
def NoBoth (es : List Event) : Prop :=
  ∀ i x y, ¬ (Event.call i true x ∈ es ∧ Event.call i false y ∈ es)

end Verif.PromiseAll.Spec
