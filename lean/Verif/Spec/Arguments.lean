import Verif.Model.Arguments
import Verif.Spec.Object

/-!
What the `arguments` object is: an element either is a parameter, seen through the object, or it is
an ordinary property, or it is missing.  A parameter seen through the object is a writable data
property whose value is the parameter.  When a definition makes of it anything else than a writable
data property, or when it is deleted, the connection ends.
-/
namespace Verif.Args.Spec
open Obj (Val Fields)
open Obj.Spec (Prp)

inductive Elem
  | missing
  | own (p : Prp)
  | shared (q : Nat) (enumerable configurable : Bool)
  deriving DecidableEq

structure St where
  elems : Nat → Elem
  env : Nat → Val
  ext : Bool

def upd {α : Type} (f : Nat → α) (i : Nat) (x : α) : Nat → α := fun j => if j = i then x else f j

/-- The property a program sees. -/
def prop (s : St) (i : Nat) : Option Prp :=
  match s.elems i with
  | .missing => none
  | .own p => some p
  | .shared q e c => some (.data (s.env q) true e c)

/-- The property `i` becomes `p`. -/
def store (s : St) (i : Nat) (p : Prp) : St :=
  match s.elems i with
  | .shared q _ _ =>
    match p with
    | .data v true e c => { s with elems := upd s.elems i (.shared q e c), env := upd s.env q v }
    | .data v false e c => { s with elems := upd s.elems i (.own (.data v false e c)), env := upd s.env q v }
    | p => { s with elems := upd s.elems i (.own p) }
  | _ => { s with elems := upd s.elems i (.own p) }

/-- A definition that is a valid descriptor. -/
def define (s : St) (i : Nat) (f : Fields) : St × Bool :=
  match prop s i with
  | none => if s.ext then (store s i (Obj.Spec.fresh f), true) else (s, false)
  | some p => if Obj.Spec.allowed f p then (store s i (Obj.Spec.applied f p), true) else (s, false)

def step (callable : Val → Bool) (s : St) : Op → St × Out
  | .define i f =>
    if Obj.Spec.valid callable f then ((define s i f).1, .bool (define s i f).2) else (s, .throw)
  | .set i v =>
    match Obj.Spec.assign (prop s i) (some (prop s i)) v with
    | .refuse => (s, .bool false)
    | .call f => (s, .call f)
    | .define f => ((define s i f).1, .bool (define s i f).2)
  | .get i =>
    match prop s i with
    | none => (s, .value .undef)
    | some (.data v _ _ _) => (s, .value v)
    | some (.acc g _ _ _) => if g = .undef then (s, .value .undef) else (s, .call g)
  | .getOwn i => (s, .desc ((prop s i).map Prp.report))
  | .delete i =>
    match prop s i with
    | none => (s, .bool true)
    | some p => if p.configurable then ({ s with elems := upd s.elems i .missing }, .bool true) else (s, .bool false)
  | .preventExtensions => ({ s with ext := false }, .unit)
  | .assign q v => ({ s with env := upd s.env q v }, .unit)
  | .read q => (s, .value (s.env q))

def run (callable : Val → Bool) : St → List Op → St × List Out
  | s, [] => (s, [])
  | s, op :: ops =>
    ((run callable (step callable s op).1 ops).1,
      (step callable s op).2 :: (run callable (step callable s op).1 ops).2)

/-- The object for a call: the arguments are the parameters of the same place; where a name is the
name of a later parameter too, it is that one. -/
def new (formals : List Nat) (args : List Val) : St where
  elems := fun i =>
    match args[i]? with
    | none => .missing
    | some v =>
      match formals[i]? with
      | some q => if q ∈ formals.drop (i + 1) then .own (.data v true true true) else .shared q true true
      | none => .own (.data v true true true)
  env := fun q =>
    match (List.range formals.length).reverse.find? fun i => formals[i]? = some q with
    | none => .undef
    | some i => args.getD i .undef
  ext := true

end Verif.Args.Spec
