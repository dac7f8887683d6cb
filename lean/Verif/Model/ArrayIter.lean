/-
Model of the iterators of arrays (`ArrayIteratorPrototype_next`,
`/repo/src/lib/rjs_array_object_inc.c`:3317-3400).

Between two calls of `next` anything may happen to the array.  A moment is what a call finds: the
length, and the elements; `none` stands for something thrown when they are asked for (by a getter, a
proxy, or, for the length of a typed array, because its buffer is detached, 3337-3345).  What else a
getter does during the call is not modelled.
-/
namespace Verif.ArrayIter

/-- `RJS_ArrayIteratorType` (618-622). -/
inductive Kind | key | value | both
  deriving DecidableEq

/-- `RJS_ArrayIterator` (625-630), without the array. -/
structure Iter where
  kind : Kind
  curr : Nat := 0

structure Moment (V : Type) where
  len : Option Nat
  get : Nat → Option V

/-- What `next` gives. -/
inductive Out (V : Type)
  | key (k : Nat)
  | value (v : V)
  | both (k : Nat) (v : V)
  | done
  | threw
  deriving DecidableEq

/-- `ArrayIteratorPrototype_next` (3317-3400). -/
def next {V : Type} (it : Iter) (m : Moment V) : Out V × Iter :=
  match m.len with
  | none => (.threw, it)
  | some len =>
    if len ≤ it.curr then (.done, { it with curr := it.curr + 1 })
    else match it.kind with
      | .key => (.key it.curr, { it with curr := it.curr + 1 })
      | .value => match m.get it.curr with
        | none => (.threw, it)
        | some v => (.value v, { it with curr := it.curr + 1 })
      | .both => match m.get it.curr with
        | none => (.threw, it)
        | some v => (.both it.curr v, { it with curr := it.curr + 1 })

/-- One call after another. -/
def calls {V : Type} (it : Iter) : List (Moment V) → List (Out V)
  | [] => []
  | m :: ms => (next it m).1 :: calls (next it m).2 ms

end Verif.ArrayIter
