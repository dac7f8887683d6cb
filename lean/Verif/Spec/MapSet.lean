import Verif.Model.MapSet
/-
Specification of Map and Set after ECMA-262 (24.1.3, 24.1.5): the data is a list of
records, a deleted record stays in the list marked empty, an iterator is an index into
the list.
-/
namespace Verif.MapSet.Spec

structure St (K V : Type) where
  /-- `[[MapData]]`; `none` is a record marked empty. -/
  data : List (Option (K × V))
  /-- The iterators' indices; `none` is an iterator that has reported the end. -/
  iters : List (Option Nat)

def init {K V : Type} : St K V := ⟨[], []⟩

/-- The record of a key. -/
def isKey {K V : Type} (eqv : K → K → Bool) (k : K) : Option (K × V) → Bool
  | none => false
  | some e => eqv e.1 k

/-- Value of a key. -/
def get {K V : Type} (eqv : K → K → Bool) (s : St K V) (k : K) : Option V :=
  ((s.data.find? (isKey eqv k)).join).map (·.2)

/-- The first record from index `i` on that is not empty, with its index. -/
def nextFrom {K V : Type} : List (Option (K × V)) → Nat → Option (Nat × (K × V))
  | [], _ => none
  | none :: r, i => nextFrom r (i + 1)
  | some e :: _, i => some (i, e)

/-- One call; `norm` is the normalisation of a new key (ECMA-262 24.1.3.9: -0 becomes
+0). -/
def step {K V : Type} (norm : K → K) (eqv : K → K → Bool) (s : St K V) :
    Op K V → Ans K V × St K V
  | .set k v =>
    (.done,
      if s.data.any (isKey eqv k) then
        { s with data := s.data.map fun r =>
            match r with
            | none => none
            | some e => if eqv e.1 k then some (e.1, v) else some e }
      else { s with data := s.data ++ [some (norm k, v)] })
  | .get k => (.value (get eqv s k), s)
  | .has k => (.bool (s.data.any (isKey eqv k)), s)
  | .delete k =>
    (.bool (s.data.any (isKey eqv k)),
      { s with data := s.data.map fun r => if isKey eqv k r then none else r })
  | .clear => (.done, { s with data := s.data.map fun _ => none })
  | .size => (.nat (s.data.countP (·.isSome)), s)
  | .iterator => (.done, { s with iters := s.iters ++ [some 0] })
  | .next i =>
    match s.iters[i]? with
    | none => (.done, s)
    | some none => (.item none, s)
    | some (some idx) =>
      match nextFrom (s.data.drop idx) idx with
      | none => (.item none, { s with iters := s.iters.set i none })
      | some (j, e) => (.item (some e), { s with iters := s.iters.set i (some (j + 1)) })

def run {K V : Type} (norm : K → K) (eqv : K → K → Bool) :
    St K V → List (Op K V) → List (Ans K V) × St K V
  | s, [] => ([], s)
  | s, o :: os =>
    let q := step norm eqv s o
    let p := run norm eqv q.2 os
    (q.1 :: p.1, p.2)

/-- The key of a call. -/
def opKey {K V : Type} : Op K V → Option K
  | .set k _ => some k
  | .get k => some k
  | .has k => some k
  | .delete k => some k
  | _ => none

end Verif.MapSet.Spec
