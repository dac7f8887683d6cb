import Verif.Model.ArrayOps
/-
Model of the methods of `Array.prototype` that call a function
(`/repo/src/lib/rjs_array_object_inc.c`).

The function may do anything: change the array, or throw.  So may the array itself, when it is a
proxy or has getters.  A method is therefore a program that asks its surroundings and goes on with
the answer it gets; what the surroundings are is left open.

The array a method makes (`map`, `filter`, `flatMap`) cannot be reached by other code before the
method is done, if `@@species` has not been changed.  It is an object of `Verif.ArrayOps`.

Not modelled: `thisArg`, which is handed on to each call; the third (in `reduce` the fourth)
argument of a call, always the object itself (the values are pushed to the stack in this order:
703-710, 815-824, 881-888, 1076-1078, 1234-1241, 1573-1582, 1723-1731, 2168-2176); the test that the
callback is a function.
-/
namespace Verif.ArrayCalls
open ArrayOps

/-- A program: it asks, and goes on with the answer. -/
inductive Prog (V R : Type)
  | done (r : R)
  | fail (e : Err)
  /-- `rjs_has_property`; `none` is the object itself, `some v` an array that was returned. -/
  | has (src : Option V) (k : Int) (next : Bool → Prog V R)
  /-- `rjs_get`, `rjs_get_index`. -/
  | get (src : Option V) (k : Int) (next : V → Prog V R)
  /-- `rjs_call` with the value and its index; in `reduce` the accumulated value comes first. -/
  | call (acc : Option V) (v : V) (k : Int) (next : V → Prog V R)
  /-- `rjs_is_array`, and `rjs_length_of_array_like` of an array. -/
  | len (v : V) (next : Option Nat → Prog V R)

section
variable {V R S σ : Type}

def Prog.bind : Prog V R → (R → Prog V S) → Prog V S
  | .done r, f => f r
  | .fail e, _ => .fail e
  | .has s k g, f => .has s k fun b => (g b).bind f
  | .get s k g, f => .get s k fun v => (g v).bind f
  | .call a v k g, f => .call a v k fun r => (g r).bind f
  | .len v g, f => .len v fun n => (g n).bind f

instance : Monad (Prog V) where
  pure := .done
  bind := .bind

def hasP (k : Int) : Prog V Bool := .has none k .done
def getP (k : Int) : Prog V V := .get none k .done
def callP (acc : Option V) (v : V) (k : Int) : Prog V V := .call acc v k .done

/-- What `rjs_create_data_property_or_throw` says about the new array. -/
def lift : Except Err R → Prog V R
  | .ok r => .done r
  | .error e => .fail e

/-- `n` rounds of a loop that counts by `d` from `k`: a round ends with a new state, or the method
with a result. -/
def loop (d : Int) (body : Int → σ → Prog V (σ ⊕ R)) : Nat → Int → σ → Prog V (σ ⊕ R)
  | 0, _, s => .done (.inl s)
  | n + 1, k, s => (body k s).bind fun
    | .inl s' => loop d body n (k + d) s'
    | .inr r => .done (.inr r)

/-- A round that passes over what is not there. -/
def ifThere (body : Int → V → σ → Prog V (σ ⊕ R)) (k : Int) (s : σ) : Prog V (σ ⊕ R) :=
  (hasP k).bind fun
    | true => (getP k).bind fun v => body k v s
    | false => .done (.inl s)

/-- The end of a method that has looked at all elements. -/
def atEnd (f : σ → R) (p : Prog V (σ ⊕ R)) : Prog V R :=
  p.bind fun
    | .inl s => .done (f s)
    | .inr r => .done r

/-- `Array_prototype_forEach` (1234-1283). -/
def forEach (n : Nat) : Prog V Unit :=
  atEnd id (loop 1 (ifThere fun k v _ => (callP none v k).bind fun _ => .done (.inl ())) n 0 ())

/-- `Array_prototype_every` (703-758). -/
def every (truthy : V → Bool) (n : Nat) : Prog V Bool :=
  atEnd (fun _ => true) (loop 1 (ifThere fun k v _ => (callP none v k).bind fun r =>
    .done (if truthy r then .inl () else .inr false)) n 0 ())

/-- `Array_prototype_some` (2168-2225). -/
def some' (truthy : V → Bool) (n : Nat) : Prog V Bool :=
  atEnd (fun _ => false) (loop 1 (ifThere fun k v _ => (callP none v k).bind fun r =>
    .done (if truthy r then .inr true else .inl ())) n 0 ())

/-- `Array_prototype_map` (1573-1630). -/
def map (n : Nat) : Prog V (Obj V) :=
  (lift (newArray n)).bind fun a =>
    atEnd id (loop 1 (ifThere fun k v a => (callP none v k).bind fun r =>
      (lift (create a k r)).bind fun a' => .done (.inl a')) n 0 a)

/-- `Array_prototype_filter` (815-878). -/
def filter (truthy : V → Bool) (n : Nat) : Prog V (Obj V) :=
  (lift (newArray 0)).bind fun a =>
    atEnd Prod.snd (loop 1 (ifThere fun k v (s : Nat × Obj V) => (callP none v k).bind fun r =>
      if truthy r then (lift (create s.2 s.1 v)).bind fun a' => .done (.inl (s.1 + 1, a'))
      else .done (.inl s)) n 0 (0, a))

/-- The rounds of the four methods that find: nothing is passed over (904-918, 951-965, 998-1012,
1045-1059). -/
def findRound (truthy : V → Bool) (k : Int) (_ : Unit) : Prog V (Unit ⊕ V × Int) :=
  (getP k).bind fun v => (callP none v k).bind fun r =>
    .done (if truthy r then .inr (v, k) else .inl ())

def findUp (truthy : V → Bool) (n : Nat) : Prog V (Option (V × Int)) :=
  (loop 1 (findRound truthy) n 0 ()).bind fun
    | .inl _ => .done none
    | .inr r => .done (some r)

def findDown (truthy : V → Bool) (n : Nat) : Prog V (Option (V × Int)) :=
  (loop (-1) (findRound truthy) n (n - 1) ()).bind fun
    | .inl _ => .done none
    | .inr r => .done (some r)

/-- `Array_prototype_find` (881-925). -/
def find [Inhabited V] (truthy : V → Bool) (n : Nat) : Prog V V :=
  (findUp truthy n).bind fun r => .done ((r.map Prod.fst).getD default)

/-- `Array_prototype_findIndex` (928-972). -/
def findIndex (truthy : V → Bool) (n : Nat) : Prog V Int :=
  (findUp truthy n).bind fun r => .done ((r.map Prod.snd).getD (-1))

/-- `Array_prototype_findLast` (975-1019). -/
def findLast [Inhabited V] (truthy : V → Bool) (n : Nat) : Prog V V :=
  (findDown truthy n).bind fun r => .done ((r.map Prod.fst).getD default)

/-- `Array_prototype_findLastIndex` (1022-1066). -/
def findLastIndex (truthy : V → Bool) (n : Nat) : Prog V Int :=
  (findDown truthy n).bind fun r => .done ((r.map Prod.snd).getD (-1))

/-- A round of `reduce` and `reduceRight` (1790-1811, 1888-1909). -/
def reduceRound (k : Int) (v acc : V) : Prog V (V ⊕ V) :=
  (callP (some acc) v k).bind fun r => .done (.inl r)

/-- The search for the first value (1763-1782, 1861-1880): the value, how many rounds are left, and
the next index. -/
def firstThere (d : Int) : Nat → Int → Prog V (Option (V × Nat × Int))
  | 0, _ => .done none
  | n + 1, k => (hasP k).bind fun
    | true => (getP k).bind fun v => .done (some (v, n, k + d))
    | false => firstThere d n (k + d)

/-- `reduce` and `reduceRight`, from `k` on (1749-1817, 1847-1915); `init` is there if the method
has two arguments. -/
def reduceFrom (d : Int) (n : Nat) (k : Int) (init : Option V) : Prog V V :=
  if n = 0 ∧ init = none then .fail .type
  else match init with
    | some v => atEnd id (loop d (ifThere reduceRound) n k v)
    | none => (firstThere d n k).bind fun
      | none => .fail .type
      | some (v, m, k') => atEnd id (loop d (ifThere reduceRound) m k' v)

/-- `Array_prototype_reduce` (1723-1818). -/
def reduce (n : Nat) (init : Option V) : Prog V V := reduceFrom 1 n 0 init

/-- `Array_prototype_reduceRight` (1821-1916). -/
def reduceRight (n : Nat) (init : Option V) : Prog V V := reduceFrom (-1) n (n - 1) init

/-- Appending to the new array of `flatMap` (1135-1143). -/
def append (v : V) (s : Nat × Obj V) : Prog V (Nat × Obj V) :=
  if maxInt ≤ s.1 then .fail .type
  else (lift (create s.2 s.1 v)).bind fun a => .done (s.1 + 1, a)

/-- `flatten_into_array` (1069-1154) with depth 0 on an array that was returned. -/
def flattenOne (src : V) (n : Nat) (s : Nat × Obj V) : Prog V ((Nat × Obj V) ⊕ Empty) :=
  loop 1 (fun k s => Prog.has (some src) k fun
    | true => .get (some src) k fun v => (append v s).bind fun s' => .done (.inl s')
    | false => .done (.inl s)) n 0 s

/-- `Array_prototype_flatMap` (1198-1231): `flatten_into_array` with depth 1. -/
def flatMap (n : Nat) : Prog V (Obj V) :=
  (lift (newArray 0)).bind fun a =>
    atEnd Prod.snd (loop 1 (ifThere fun k v (s : Nat × Obj V) => (callP none v k).bind fun r =>
      .len r fun
        | none => (append r s).bind fun s' => .done (.inl s')
        | some m => (flattenOne r m s).bind fun
          | .inl s' => .done (.inl s')
          | .inr e => nomatch e) n 0 (0, a))

end

end Verif.ArrayCalls
