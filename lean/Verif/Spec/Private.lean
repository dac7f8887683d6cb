import Verif.Model.Private

/-!
Private names and elements as in the standard (ECMA-262 6.2.12, 7.3.27-7.3.32): a private name is made
by one evaluation of a class for one of its identifiers; every object has, apart from its properties,
private elements.  Here a private name *is* the pair of the number of the evaluation and the identifier.
-/
namespace Verif.Priv.Spec
open Obj (Val)

/-- A private name: which evaluation of a class, which identifier. -/
abbrev Name := Nat × Nat

inductive Elem
  | field (v : Val)
  | method (f : Val)
  | accessor (get set : Option Val)
  deriving DecidableEq

structure St where
  /-- The classes evaluated: the ones around it, and its identifiers. The first is the innermost. -/
  envs : List (List (Nat × List Nat))
  elems : Nat → Name → Option Elem
  /-- The ordinary properties, in the order of creation; `true` for symbols. -/
  props : Nat → List ((Bool × Nat) × Val)

/-- ResolvePrivateIdentifier (9.2.1.2): the innermost class that declares the identifier. -/
def resolve (i : Nat) (env : List (Nat × List Nat)) : Option Name :=
  (env.find? fun e => i ∈ e.2).map fun e => (e.1, i)

def setElem (s : St) (o : Nat) (n : Name) (x : Elem) : St :=
  { s with elems := fun o' n' => if o' = o ∧ n' = n then some x else s.elems o' n' }

def withName (s : St) (env i : Nat) (f : Name → St × Out) : St × Out :=
  match resolve i (s.envs.getD env []) with
  | none => (s, .fault)
  | some n => f n

def setProps (s : St) (o : Nat) (l : List ((Bool × Nat) × Val)) : St :=
  { s with props := fun o' => if o' = o then l else s.props o' }

def step (s : St) : Op → St × Out
  | .newEnv outer ids =>
    ({ s with envs := s.envs ++ [(s.envs.length, ids) ::
        (match outer with | some e => s.envs.getD e [] | none => [])] }, .unit)
  -- PrivateGet
  | .get env o i => withName s env i fun n =>
    match s.elems o n with
    | none => (s, .typeError)
    | some (.field v) => (s, .value v)
    | some (.method f) => (s, .value f)
    | some (.accessor (some g) _) => (s, .call g)
    | some (.accessor none _) => (s, .typeError)
  -- PrivateSet
  | .set env o i v => withName s env i fun n =>
    match s.elems o n with
    | none => (s, .typeError)
    | some (.field _) => (setElem s o n (.field v), .unit)
    | some (.method _) => (s, .typeError)
    | some (.accessor _ (some f)) => (s, .call f)
    | some (.accessor _ none) => (s, .typeError)
  | .has env o i => withName s env i fun n => (s, .bool (s.elems o n).isSome)
  -- PrivateFieldAdd
  | .addField env o i v => withName s env i fun n =>
    match s.elems o n with
    | some _ => (s, .typeError)
    | none => (setElem s o n (.field v), .unit)
  -- PrivateMethodOrAccessorAdd
  | .addMethod env o i v => withName s env i fun n =>
    match s.elems o n with
    | some _ => (s, .typeError)
    | none => (setElem s o n (.method v), .unit)
  -- An accessor is made of its halves; a half that is there is not replaced.
  | .addGetter env o i v => withName s env i fun n =>
    match s.elems o n with
    | none => (setElem s o n (.accessor (some v) none), .unit)
    | some (.accessor none f) => (setElem s o n (.accessor (some v) f), .unit)
    | some _ => (s, .typeError)
  | .addSetter env o i v => withName s env i fun n =>
    match s.elems o n with
    | none => (setElem s o n (.accessor none (some v)), .unit)
    | some (.accessor g none) => (setElem s o n (.accessor g (some v)), .unit)
    | some _ => (s, .typeError)
  -- Ordinary properties know nothing of all that.
  | .putProp o sym n v =>
    match (s.props o).lookup (sym, n) with
    | some _ => (setProps s o ((s.props o).map fun e => if e.1 = (sym, n) then (e.1, v) else e), .unit)
    | none => (setProps s o (s.props o ++ [((sym, n), v)]), .unit)
  | .getProp o sym n => (s, .value (((s.props o).lookup (sym, n)).getD .undef))
  | .deleteProp o sym n => (setProps s o ((s.props o).filter fun e => e.1 ≠ (sym, n)), .unit)
  | .ownKeys o =>
    (s, .keys ((((s.props o).map (·.1)).filter fun k => !k.1) ++ (((s.props o).map (·.1)).filter fun k => k.1)))

def run (s : St) : List Op → St × List Out
  | [] => (s, [])
  | op :: ops => ((run (step s op).1 ops).1, (step s op).2 :: (run (step s op).1 ops).2)

def init : St := { envs := [], elems := fun _ _ => none, props := fun _ => [] }

/-- Getters, setters and methods are functions: never `undefined`. -/
def Functions : Op → Prop
  | .addGetter _ _ _ v => v ≠ .undef
  | .addSetter _ _ _ v => v ≠ .undef
  | _ => True

end Verif.Priv.Spec
