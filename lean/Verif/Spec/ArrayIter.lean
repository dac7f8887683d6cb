import Verif.Model.ArrayIter
/-
The iterators of the standard (ECMA-262, 23.1.5.1 CreateArrayIterator): a generator that ends when
the index reaches the length, or when something is thrown.
-/
namespace Verif.ArrayIter.Spec

/-- Not ended, the next index; or ended. -/
inductive State | running (k : Nat) | ended

def outAt {V : Type} (kind : Kind) (k : Nat) (m : Moment V) : Option (Out V) :=
  match kind with
  | .key => some (.key k)
  | .value => (m.get k).map .value
  | .both => (m.get k).map (.both k)

def next {V : Type} (kind : Kind) : State → Moment V → Out V × State
  | .ended, _ => (.done, .ended)
  | .running k, m =>
    match m.len with
    | none => (.threw, .ended)
    | some len =>
      if k < len then
        match outAt kind k m with
        | some o => (o, .running (k + 1))
        | none => (.threw, .ended)
      else (.done, .ended)

def calls {V : Type} (kind : Kind) : State → List (Moment V) → List (Out V)
  | _, [] => []
  | s, m :: ms => (next kind s m).1 :: calls kind (next kind s m).2 ms

/-- A key, a value or both: not the end. -/
def isItem {V : Type} : Out V → Bool
  | .done | .threw => false
  | _ => true

end Verif.ArrayIter.Spec
