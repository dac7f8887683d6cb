import Verif.Model.CapSlots

/-!
# Executors as the standard has them

27.2.1.5 (NewPromiseCapability): the executor is a closure with a record of its own; it throws a TypeError
if the record is set, and touches nothing else.  There are no addresses: a function has its variables, a
capability's variables are the promise and the record.  Of the model the operations and observations are
used.
-/

namespace Verif.CapSlots.Spec

open Verif.CapSlots

/-- A running function: its variables, or the promise of capability `k`. -/
inductive Fun where
  | plain (vars : List Val)
  | cap (k : Nat) (promise : Val)
  deriving DecidableEq

/-- The running functions (innermost first) and the record of each executor. -/
structure World where
  funs : List Fun
  recs : List (Val × Val)
  deriving DecidableEq

def start : World := ⟨[], []⟩

/-- The variables of a function. -/
def vars (recs : List (Val × Val)) : Fun → List Val
  | .plain l => l
  | .cap k p => [p, (recs.getD k (0, 0)).1, (recs.getD k (0, 0)).2]

/-- One operation. -/
def does (w : World) : Op → World × Obs
  | .enter n => (⟨.plain (List.replicate n 0) :: w.funs, w.recs⟩, .none)
  | .leave =>
    match w.funs with
    | [] => (w, .bad)
    | _ :: fs => (⟨fs, w.recs⟩, .none)
  | .write i v =>
    match w.funs with
    | .plain l :: fs => if i < l.length then (⟨.plain (l.set i v) :: fs, w.recs⟩, .none) else (w, .bad)
    | .cap k _ :: fs => if i = 0 then (⟨.cap k v :: fs, w.recs⟩, .none) else (w, .bad)
    | [] => (w, .bad)
  | .read i =>
    match w.funs with
    | [] => (w, .bad)
    | f :: _ =>
      match (vars w.recs f)[i]? with
      | some v => (w, .val v)
      | none => (w, .bad)
  | .newCap => (⟨.cap w.recs.length 0 :: w.funs, w.recs ++ [(0, 0)]⟩, .none)
  | .exec k a b =>
    match w.recs[k]? with
    | none => (w, .bad)
    | some r => if r = (0, 0) then (⟨w.funs, w.recs.set k (a, b)⟩, .ok) else (w, .typeError)

/-- A program. -/
def runs (w : World) : List Op → List Obs
  | [] => []
  | o :: os => (does w o).2 :: runs (does w o).1 os

/-- Every executor is called only while the function that made its capability is running (as by a
constructor that does not keep it). -/
def Timely : World → List Op → Prop
  | _, [] => True
  | w, o :: os => (match o with
    | .exec k _ _ => ∃ p, Fun.cap k p ∈ w.funs
    | _ => True) ∧ Timely (does w o).1 os

end Verif.CapSlots.Spec
