import Verif.Model.Class

/-!
The standard: ClassDefinitionEvaluation (ECMA-262 15.7.14, steps 26 to 34), InitializeInstanceElements
(7.3.34), DefineField (7.3.33), PrivateMethodOrAccessorAdd (7.3.29).
-/
namespace Verif.Class.Spec
open Obj (Val)
open Priv.Spec (Elem)

/-- A PrivateElement with its key. -/
abbrev PE := Nat × Elem

inductive StaticEl
  | field (name : Name) (init : Option Val)
  | block (f : Val)
  deriving DecidableEq

/-- What the evaluation of the elements collects (steps 21 to 25). -/
structure Coll where
  instancePrivateMethods : List PE
  staticPrivateMethods : List PE
  instanceFields : List (Name × Option Val)
  staticElements : List StaticEl

/-- [[PrivateMethods]] and [[Fields]] of the constructor. -/
structure Record where
  privateMethods : List PE
  fields : List (Name × Option Val)

/-- Steps 26.c to 26.e: a second accessor of the same name is united with the first. -/
def unite (l : List PE) (n : Nat) : Elem → List PE
  | .accessor g f =>
    match l.lookup n with
    | some (.accessor g' f') =>
      l.map fun e => if e.1 = n then (n, .accessor (g.or g') (f.or f')) else e
    | _ => l ++ [(n, .accessor g f)]
  | e => l ++ [(n, e)]

/-- The PrivateElement of a method definition. -/
def elemOf (kind : Kind) (f : Val) : Elem :=
  match kind with
  | .method => .method f
  | .getter => .accessor (some f) none
  | .setter => .accessor none (some f)

section
variable {σ : Type} (W : World σ)

/-- ClassElementEvaluation of one element (step 26.a). -/
def element (c : Coll) : Src → Act σ Coll
  | .method static kind (.pub e) f => fun s =>
    match W.key e s with
    | (s, none) => (s, none)
    | (s, some k) =>
      match W.defMethod static kind k f s with
      | (s, none) => (s, none)
      | (s, some ()) => (s, some c)
  | .method static kind (.priv n) f => fun s =>
    (s, some (if static then { c with staticPrivateMethods := unite c.staticPrivateMethods n (elemOf kind f) }
      else { c with instancePrivateMethods := unite c.instancePrivateMethods n (elemOf kind f) }))
  | .field static name init => fun s =>
    match (match name with
      | .pub e => (match W.key e s with | (s, r) => (s, r.map Name.pub))
      | .priv n => (s, some (Name.priv n))) with
    | (s, none) => (s, none)
    | (s, some nm) =>
      (s, some (if static then { c with staticElements := c.staticElements ++ [.field nm init] }
        else { c with instanceFields := c.instanceFields ++ [(nm, init)] }))
  | .block f => fun s => (s, some { c with staticElements := c.staticElements ++ [.block f] })

def elements (c : Coll) : List Src → Act σ Coll
  | [] => fun s => (s, some c)
  | x :: xs => fun s =>
    match element W c x s with
    | (s, none) => (s, none)
    | (s, some c) => elements c xs s

/-- PrivateMethodOrAccessorAdd: throws if the object has the element. -/
def addPE (o : Nat) (e : PE) : Act σ Unit := fun s =>
  match s.elems o e.1 with
  | some _ => (s, none)
  | none => ({ s with elems := fun o' n' => if o' = o ∧ n' = e.1 then some e.2 else s.elems o' n' }, some ())

def addPEs (o : Nat) : List PE → Act σ Unit
  | [] => fun s => (s, some ())
  | e :: es => fun s =>
    match addPE o e s with
    | (s, none) => (s, none)
    | (s, some ()) => addPEs o es s

/-- DefineField. -/
def defineField (o : Nat) (name : Name) (init : Option Val) : Act σ Unit := fun s =>
  match (match init with | some f => W.init f o s | none => (s, some .undef)) with
  | (s, none) => (s, none)
  | (s, some v) =>
    match name with
    | .priv n => addPE o (n, .field v) s
    | .pub k => W.define o k v s

/-- Step 34. -/
def statics (c : Nat) : List StaticEl → Act σ Unit
  | [] => fun s => (s, some ())
  | .field name init :: xs => fun s =>
    match defineField W c name init s with
    | (s, none) => (s, none)
    | (s, some ()) => statics c xs s
  | .block f :: xs => fun s =>
    match W.block f c s with
    | (s, none) => (s, none)
    | (s, some ()) => statics c xs s

/-- Steps 31 to 34: the constructor gets its lists, then its private methods, then the static fields
and blocks are evaluated. -/
def finish (c : Nat) (x : Coll) : Act σ Record := fun s =>
  match addPEs c x.staticPrivateMethods { s with ready := true } with
  | (s, none) => (s, none)
  | (s, some ()) =>
    match statics W c x.staticElements s with
    | (s, none) => (s, none)
    | (s, some ()) => (s, some ⟨x.instancePrivateMethods, x.instanceFields⟩)

def classBody (c : Nat) (srcs : List Src) : Act σ Record := fun s =>
  match elements W ⟨[], [], [], []⟩ srcs s with
  | (s, none) => (s, none)
  | (s, some x) => finish W c x s

def fields (o : Nat) : List (Name × Option Val) → Act σ Unit
  | [] => fun s => (s, some ())
  | (name, init) :: fs => fun s =>
    match defineField W o name init s with
    | (s, none) => (s, none)
    | (s, some ()) => fields o fs s

/-- InitializeInstanceElements. -/
def initInstance (r : Record) (o : Nat) : Act σ Unit := fun s =>
  match addPEs o r.privateMethods s with
  | (s, none) => (s, none)
  | (s, some ()) => fields W o r.fields s

end

/-! ## Conditions -/

/-- The private methods declared in a class body, static or not. -/
def declared (static : Bool) (srcs : List Src) : List (Kind × Nat × Val) :=
  srcs.filterMap fun x => match x with
    | .method st kind (.priv n) f => if st = static then some (kind, n, f) else none
    | _ => none

/-- The early errors for private names (15.7.1): a name is declared once, or as one getter and one
setter. (`priv_id_new`, rjs_parser.c:4195-4243.) -/
def Once (l : List (Kind × Nat × Val)) : Prop :=
  l.Pairwise fun a b => a.2.1 = b.2.1 → (a.1 = .getter ∧ b.1 = .setter) ∨ (a.1 = .setter ∧ b.1 = .getter)

/-- A static field or block. -/
def isStaticInit : Src → Bool
  | .field true _ _ => true
  | .block _ => true
  | _ => false

/-- A static private method, getter or setter. -/
def isStaticPrivate : Src → Bool
  | .method true _ (.priv _) _ => true
  | _ => false

/-- No static private method stands after a static field or block. -/
def MethodsFirst (srcs : List Src) : Prop :=
  srcs.Pairwise fun a b => ¬ (isStaticInit a = true ∧ isStaticPrivate b = true)

/-- The state with or without the list of instance elements. -/
def withReady {σ α : Type} (b : Bool) (r : St σ × Option α) : St σ × Option α := ({ r.1 with ready := b }, r.2)

/-- The code run by static fields and blocks does not depend on the class having its list of instance
elements: it makes no instance of the class. -/
structure Blind {σ : Type} (W : World σ) : Prop where
  init : ∀ f o s b, W.init f o { s with ready := b } = withReady b (W.init f o s)
  define : ∀ o k v s b, W.define o k v { s with ready := b } = withReady b (W.define o k v s)
  block : ∀ f o s b, W.block f o { s with ready := b } = withReady b (W.block f o s)

/-- The object has the method, getter or setter. -/
def HasMethod {σ : Type} (s : St σ) (o : Nat) (m : Kind × Nat × Val) : Prop :=
  match m.1 with
  | .method => ∃ e, s.elems o m.2.1 = some e
  | .getter => ∃ e, s.elems o m.2.1 = some e ∧ ∀ g, e ≠ .accessor none g
  | .setter => ∃ e, s.elems o m.2.1 = some e ∧ ∀ g, e ≠ .accessor g none

end Verif.Class.Spec
