import Verif.Model.Env
import Verif.Spec.Env

/-! The static structure of a program, as the code generator lays it out, and the executions that
respect it: each scope has a fixed enclosing scope and a fixed list of declarations, each binding
name belongs to one scope and is used only while an environment of that scope is running. -/

namespace Verif.Env

/-- The scopes and binding names of a program.  Scope 0 is the global one. -/
structure Code where
  names : List Name
  scopeOf : Nat → Nat
  kind : Nat → Kind
  parent : Nat → Nat
  depth : Nat → Nat
  decls : Nat → List (Nat × Bool × Bool)

/-- The name of a binding name. -/
def Code.name (P : Code) (b : Nat) : Name := P.names.getD b 0

/-- A sensible program: scopes nest, fewer than 65535 deep; a scope declares at most 65536 names,
and a `with` scope none. -/
structure Code.WF (P : Code) : Prop where
  depth0 : P.depth 0 = 0
  up : ∀ σ, σ ≠ 0 → P.depth σ = P.depth (P.parent σ) + 1
  shallow : ∀ σ, P.depth σ < 65535
  kinds : ∀ σ, P.kind σ ≠ .global
  few : ∀ σ, (P.decls σ).length ≤ 65536
  plain : ∀ σ, P.kind σ = .withObj → P.decls σ = []
  known : ∀ σ d, d ∈ P.decls σ → d.1 < P.names.length

/-- The declarations of a scope by name. -/
def Code.named (P : Code) (l : List (Nat × Bool × Bool)) : List (Nat × Bool × Bool) :=
  l.map fun d => (P.name d.1, d.2.1, d.2.2)

/-- What an operation does in terms of names; a tail call has no counterpart. -/
def act (P : Code) : Op → Option Spec.Action
  | .enter kind outer decls obj =>
    some (.enter (decide (kind = .withObj)) outer (P.named decls) obj)
  | .declare e b imm strict => some (.declare e (P.name b) imm strict)
  | .resolve e b => some (.resolve e (P.name b))
  | .direct e b => some (.direct e (P.name b))
  | .init r v => some (.init r v)
  | .get r strict => some (.get r strict)
  | .set r v strict => some (.set r v strict)
  | .delete r strict => some (.delete r strict)
  | .putProp e n v => some (.putProp e n v)
  | .delProp e n => some (.delProp e n)
  | .evalVar e b => some (.evalVar e (P.name b))
  | .evalFunc e b v => some (.evalFunc e (P.name b) v)
  | .tail _ _ => none

/-- The answer as the engine gives it. -/
def ans : Spec.Answer → Out
  | .done => .done
  | .value v => .val v
  | .truth b => .bool b
  | .referenceError => .refErr
  | .typeError => .typeErr
  | .record e => .env e

/-- The operations that follow the static structure.  The list holds the scope of each
environment made so far.  Direct eval that declares in a function and deleting a property of the
global object are not among them. -/
inductive Allowed (P : Code) (w : Spec.World) : List Nat → Op → List Nat → Prop where
  | enter {sc : List Nat} {σ outer : Nat} {obj : List (Name × Val)} :
      σ ≠ 0 → sc[outer]? = some (P.parent σ) →
      Allowed P w sc (.enter (P.kind σ) outer (P.decls σ) obj) (sc ++ [σ])
  | declare {sc : List Nat} {b : Nat} {imm strict : Bool} :
      b < P.names.length → P.scopeOf b = 0 →
      (∀ r, w.records[0]? = some r → r.bindings.length < 65536) →
      Allowed P w sc (.declare 0 b imm strict) sc
  | resolve {sc : List Nat} {e b : Nat} :
      b < P.names.length → sc[e]? = some (P.scopeOf b) → Allowed P w sc (.resolve e b) sc
  | direct {sc : List Nat} {e b : Nat} :
      b < P.names.length → sc[e]? = some (P.scopeOf b) → Allowed P w sc (.direct e b) sc
  | init {sc : List Nat} {r v : Nat} : Allowed P w sc (.init r v) sc
  | get {sc : List Nat} {r : Nat} {strict : Bool} : Allowed P w sc (.get r strict) sc
  | set {sc : List Nat} {r v : Nat} {strict : Bool} : Allowed P w sc (.set r v strict) sc
  | delete {sc : List Nat} {r : Nat} {strict : Bool} :
      (∀ x rec, w.references[r]? = some x → x.base = some 0 → w.records[0]? = some rec →
        (Spec.get rec.bindings x.name).isSome = true) →
      Allowed P w sc (.delete r strict) sc
  | putProp {sc : List Nat} {e n v : Nat} : Allowed P w sc (.putProp e n v) sc
  | delProp {sc : List Nat} {e n : Nat} : e ≠ 0 → Allowed P w sc (.delProp e n) sc

/-- An execution of a program as specified, all of its operations allowed. -/
inductive Execution (P : Code) :
    List Nat → Spec.World → List Op → Spec.World → List Spec.Answer → Prop where
  | nil {sc : List Nat} {w : Spec.World} : Execution P sc w [] w []
  | cons {sc sc' : List Nat} {w w' w'' : Spec.World} {op : Op} {ops : List Op}
      {a : Spec.Action} {o : Spec.Answer} {os : List Spec.Answer} :
      Allowed P w sc op sc' → act P op = some a → Spec.Step w a w' o →
      Execution P sc' w' ops w'' os → Execution P sc w (op :: ops) w'' (o :: os)

/-- The world at the start. -/
def start (obj : List (Name × Val)) : Spec.World :=
  { records := [{ form := .global, outer := none, bindings := [], object := obj }]
    references := [] }

end Verif.Env
