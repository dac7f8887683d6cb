import Verif.Model.Hash
/-
Model of the Map and Set objects and their iterators
(`/repo/src/lib/rjs_hash_object_inc.c`, `rjs_map_object_inc.c`, `rjs_set_object_inc.c`)
on top of the hash table model.

An entry (`RJS_MapEntry`) is named by a number; new entries get new numbers (memory
freed by `RJS_DEL` is never an entry again, so that every use of a freed entry shows as
the outcome `none`, undefined behaviour).  The linked list `ho->list` is the list of the
entries' numbers (its pointer operations are the subject of C06); the sentinel
`&ho->list` is `none`.  A Set is a Map whose values are not used.  Simplified: the keys
in the hash table are copies of the entries' keys (in C they are pointers to them; an
entry's key is never changed), the iterator result object is the key and value read.
-/
namespace Verif.MapSet

open Verif

/-- `RJS_HashIter` (rjs_hash_object_inc.c, `curr` and `done`). -/
structure Iter where
  curr : Option Nat
  done : Bool
deriving Repr, DecidableEq

/-- `RJS_HashObject`, the memory of its entries and the iterators in `ho->iters`. -/
structure Obj (K V : Type) where
  hash : Hash.Table K Nat
  list : List Nat
  mem : List (Option (K × V))
  iters : List Iter

/-- A new, empty Map. -/
def init {K V : Type} : Obj K V := ⟨Hash.init, [], [], []⟩

/-- `ln.next` of a node of the list: the inner `none` is the sentinel, the outer one
says that the node is not in the list. -/
def nextOf : List Nat → Nat → Option (Option Nat)
  | [], _ => none
  | a :: r, n => if a = n then some r.head? else nextOf r n

/-- Read an entry: `none` if it was freed. -/
def entry {K V : Type} (o : Obj K V) (n : Nat) : Option (K × V) := (o.mem[n]?).join

/-- `hash_add` (rjs_hash_object_inc.c:312-341), followed by the write of the value
(rjs_map_object_inc.c:272-274). -/
def set {K V : Type} (hash : K → Nat) (eqv : K → K → Bool) (o : Obj K V) (k : K) (v : V) :
    Option (Obj K V) :=
  let q := Hash.lookup hash eqv o.hash k
  match q.1 with
  | none =>
    let n := o.mem.length
    match Hash.insert hash o.hash k n q.2 with
    | none => none
    | some t =>
      some { hash := t
             list := o.list ++ [n]
             mem := o.mem ++ [some (k, v)]
             iters := o.iters.map fun it =>
               if !it.done && it.curr == none then { it with curr := some n } else it }
  | some n =>
    match entry o n with
    | none => none
    | some (k', _) => some { o with mem := o.mem.set n (some (k', v)) }

/-- `hash_get` (rjs_hash_object_inc.c:344-354) and the read of the value
(rjs_map_object_inc.c:209-214): `some none` is "not found". -/
def get {K V : Type} (hash : K → Nat) (eqv : K → K → Bool) (o : Obj K V) (k : K) :
    Option (Option V) :=
  match (Hash.lookup hash eqv o.hash k).1 with
  | none => some none
  | some n => (entry o n).map fun e => some e.2

/-- `hash_delete` (rjs_hash_object_inc.c:357-382) and `RJS_DEL`
(rjs_map_object_inc.c:112-119). -/
def delete {K V : Type} (hash : K → Nat) (eqv : K → K → Bool) (o : Obj K V) (k : K) :
    Option (Bool × Obj K V) :=
  let q := Hash.lookup hash eqv o.hash k
  match q.1 with
  | none => some (false, o)
  | some n =>
    match Hash.remove o.hash q.2, nextOf o.list n with
    | some t, some nx =>
      some (true,
        { hash := t
          list := o.list.filter (· ≠ n)
          mem := o.mem.set n none
          iters := o.iters.map fun it => if it.curr == some n then { it with curr := nx } else it })
    | _, _ => none

/-- `hash_clear` (rjs_hash_object_inc.c:385-406). -/
def clear {K V : Type} (o : Obj K V) : Obj K V :=
  { hash := Hash.init
    list := []
    mem := o.list.foldl (fun m n => m.set n none) o.mem
    iters := o.iters.map fun it => { it with curr := none } }

/-- `hash_iter_new` (rjs_hash_object_inc.c:446-470) and the start of `forEach`
(rjs_map_object_inc.c:169-172). -/
def iterNew {K V : Type} (o : Obj K V) : Obj K V :=
  { o with iters := o.iters ++ [⟨o.list.head?, false⟩] }

/-- `hash_iter_next` (rjs_hash_object_inc.c:487-554) for the `i`-th iterator, and one
round of the loop of `forEach` (rjs_map_object_inc.c:176-184): `some none` is "done". -/
def iterNext {K V : Type} (o : Obj K V) (i : Nat) : Option (Option (K × V) × Obj K V) :=
  match o.iters[i]? with
  | none => none
  | some it =>
    match it.curr with
    | none => some (none, { o with iters := o.iters.set i { it with done := true } })
    | some n =>
      match entry o n, nextOf o.list n with
      | some e, some nx => some (some e, { o with iters := o.iters.set i { it with curr := nx } })
      | _, _ => none

/-- The calls a program can make. -/
inductive Op (K V : Type)
  | set (k : K) (v : V)
  | get (k : K)
  | has (k : K)
  | delete (k : K)
  | clear
  | size
  | iterator
  | next (i : Nat)

/-- The answers. -/
inductive Ans (K V : Type)
  | done
  | value (v : Option V)
  | bool (b : Bool)
  | nat (n : Nat)
  | item (e : Option (K × V))
deriving DecidableEq, Repr

/-- One call (`next` of an iterator that does not exist is no call at all). -/
def step {K V : Type} (hash : K → Nat) (eqv : K → K → Bool) (o : Obj K V) :
    Op K V → Option (Ans K V × Obj K V)
  | .set k v => (set hash eqv o k v).map fun o' => (.done, o')
  | .get k => (get hash eqv o k).map fun r => (.value r, o)
  | .has k => some (.bool (Hash.lookup hash eqv o.hash k).1.isSome, o)
  | .delete k => (delete hash eqv o k).map fun r => (.bool r.1, r.2)
  | .clear => some (.done, clear o)
  | .size => some (.nat o.hash.entryNum, o)
  | .iterator => some (.done, iterNew o)
  | .next i =>
    if i < o.iters.length then (iterNext o i).map fun r => (.item r.1, r.2)
    else some (.done, o)

def run {K V : Type} (hash : K → Nat) (eqv : K → K → Bool) :
    Obj K V → List (Op K V) → Option (List (Ans K V) × Obj K V)
  | o, [] => some ([], o)
  | o, p :: ps =>
    match step hash eqv o p with
    | none => none
    | some (a, o') => (run hash eqv o' ps).map fun q => (a :: q.1, q.2)

end Verif.MapSet
