import Verif.Spec.Private

/-!
Model of the evaluation of a class body and of the initialisation of instances
(`/repo/src/lib/rjs_native_stack.c:601-911`, `/repo/src/lib/rjs_function.c:107-158`,
`/repo/src/lib/rjs_operation.c:1825-1857`, `/repo/src/lib/rjs_bc_gen.c:3863-3972`).

Everything a program can influence (computed names, initialisers, static blocks, definitions of
properties, which may meet proxies) is a `World` of arbitrary functions on the state; the state shows
them the private elements of all objects and whether the class has its list of instance elements.
Private names are taken as resolved; what the private operations do is C80 (an accessor is added half
by half, as `rjs_private_accessor_add` does).  The naming of anonymous functions
(`rjs_set_function_name` in `rjs_define_field`) is part of the evaluation of the initialiser.
-/
namespace Verif.Class
open Obj (Val)
open Priv.Spec (Elem)

/-- The state seen by user code. -/
structure St (σ : Type) where
  /-- `bfo->clazz` of the constructor is not `NULL`: `rjs_initialize_instance_elements` has something to
  do (rjs_function.c:121). -/
  ready : Bool
  /-- The private elements of the objects. -/
  elems : Nat → Nat → Option Elem
  rest : σ

/-- A computation that may throw (`none`). -/
abbrev Act (σ α : Type) := St σ → St σ × Option α

inductive Kind
  | method | getter | setter
  deriving DecidableEq

/-- The name of a field: a property key or a private name. -/
inductive Name
  | pub (k : Nat)
  | priv (n : Nat)
  deriving DecidableEq

/-- The name of an element as written: an expression, or a private name. -/
inductive SName
  | pub (expr : Nat)
  | priv (n : Nat)
  deriving DecidableEq

/-- `RJS_AstClassElem`. -/
inductive Src
  | method (static : Bool) (kind : Kind) (name : SName) (f : Val)
  | field (static : Bool) (name : SName) (init : Option Val)
  | block (f : Val)
  deriving DecidableEq

structure World (σ : Type) where
  /-- The evaluation of a name (`bc_gen_prop_name`, rjs_bc_gen.c:3714-3745, with `to_prop`). -/
  key : Nat → Act σ Nat
  /-- `rjs_create_method` (rjs_operation.c:1947-2060) on the constructor (`true`) or the prototype. -/
  defMethod : Bool → Kind → Nat → Val → Act σ Unit
  /-- The call of an initialiser (rjs_operation.c:1833) with `this`. -/
  init : Val → Nat → Act σ Val
  /-- `rjs_create_data_property_or_throw` (rjs_operation.c:1850). -/
  define : Nat → Nat → Val → Act σ Unit
  /-- The call of a static block (rjs_native_stack.c:682). -/
  block : Val → Nat → Act σ Unit

/-- `RJS_StateClassElement` (rjs_native_stack.h): what `rjs_class_state_add_element` appends. -/
inductive El
  | privMethod (kind : Kind) (n : Nat) (f : Val)
  | staticPrivMethod (kind : Kind) (n : Nat) (f : Val)
  | instField (name : Name) (init : Option Val)
  | field (name : Name) (init : Option Val)
  | staticInit (f : Val)
  deriving DecidableEq

/-- `RJS_ScriptClass`: private methods and fields of the instances. -/
structure Clazz where
  methods : List (Kind × Nat × Val)
  fields : List (Name × Option Val)
  deriving DecidableEq

section
variable {σ : Type} (W : World σ)

/-- One element of the class body: `bc_gen_class` (rjs_bc_gen.c:3864-3972) evaluates the name and
`rjs_class_state_add_element` (rjs_native_stack.c:756-911) defines a method or appends to the list. -/
def addElement (els : List El) : Src → Act σ (List El)
  | .method static kind (.pub e) f => fun s =>
    match W.key e s with
    | (s, none) => (s, none)
    | (s, some k) =>
      match W.defMethod static kind k f s with
      | (s, none) => (s, none)
      | (s, some ()) => (s, some els)
  | .method false kind (.priv n) f => fun s => (s, some (els ++ [.privMethod kind n f]))
  | .method true kind (.priv n) f => fun s => (s, some (els ++ [.staticPrivMethod kind n f]))
  | .field static (.pub e) init => fun s =>
    match W.key e s with
    | (s, none) => (s, none)
    | (s, some k) => (s, some (els ++ [if static then .field (.pub k) init else .instField (.pub k) init]))
  | .field static (.priv n) init => fun s =>
    (s, some (els ++ [if static then .field (.priv n) init else .instField (.priv n) init]))
  | .block f => fun s => (s, some (els ++ [.staticInit f]))

def addElements (els : List El) : List Src → Act σ (List El)
  | [] => fun s => (s, some els)
  | x :: xs => fun s =>
    match addElement W els x s with
    | (s, none) => (s, none)
    | (s, some els) => addElements els xs s

def setElem (s : St σ) (o n : Nat) (x : Elem) : St σ :=
  { s with elems := fun o' n' => if o' = o ∧ n' = n then some x else s.elems o' n' }

/-- `rjs_private_method_add`, `rjs_private_accessor_add` (rjs_private_name_opt.c:405-483), by C80. -/
def addPrivate (o : Nat) (kind : Kind) (n : Nat) (f : Val) : Act σ Unit := fun s =>
  match kind, s.elems o n with
  | .method, none => (setElem s o n (.method f), some ())
  | .method, some _ => (s, none)
  | .getter, none => (setElem s o n (.accessor (some f) none), some ())
  | .getter, some (.accessor none g) => (setElem s o n (.accessor (some f) g), some ())
  | .getter, some _ => (s, none)
  | .setter, none => (setElem s o n (.accessor none (some f)), some ())
  | .setter, some (.accessor g none) => (setElem s o n (.accessor g (some f)), some ())
  | .setter, some _ => (s, none)

/-- `rjs_define_field` (rjs_operation.c:1825-1857). -/
def defineField (o : Nat) (name : Name) (init : Option Val) : Act σ Unit := fun s =>
  match (match init with | some f => W.init f o s | none => (s, some .undef)) with
  | (s, none) => (s, none)
  | (s, some v) =>
    match name with
    | .priv n =>
      match s.elems o n with
      | some _ => (s, none)
      | none => (setElem s o n (.field v), some ())
    | .pub k => W.define o k v s

/-- The loop of `rjs_class_state_init` (rjs_native_stack.c:639-693); `c` is the constructor. -/
def classLoop (c : Nat) (cl : Clazz) : List El → Act σ Clazz
  | [] => fun s => (s, some cl)
  | .privMethod kind n f :: els => classLoop c { cl with methods := cl.methods ++ [(kind, n, f)] } els
  | .staticPrivMethod kind n f :: els => fun s =>
    match addPrivate c kind n f s with
    | (s, none) => (s, none)
    | (s, some ()) => classLoop c cl els s
  | .instField name init :: els => classLoop c { cl with fields := cl.fields ++ [(name, init)] } els
  | .staticInit f :: els => fun s =>
    match W.block f c s with
    | (s, none) => (s, none)
    | (s, some ()) => classLoop c cl els s
  | .field name init :: els => fun s =>
    match defineField W c name init s with
    | (s, none) => (s, none)
    | (s, some ()) => classLoop c cl els s

/-- `rjs_class_state_init` (rjs_native_stack.c:601-711): `bfo->clazz = clazz` comes after the loop (697). -/
def classInit (c : Nat) (els : List El) : Act σ Clazz := fun s =>
  match classLoop W c { methods := [], fields := [] } els s with
  | (s, none) => (s, none)
  | (s, some cl) => ({ s with ready := true }, some cl)

/-- The evaluation of the class body (rjs_bc_gen.c:3863-3984), after the constructor was made. -/
def classBody (c : Nat) (srcs : List Src) : Act σ Clazz := fun s =>
  match addElements W [] srcs s with
  | (s, none) => (s, none)
  | (s, some els) => classInit W c els s

/-- The two loops of `rjs_initialize_instance_elements` (rjs_function.c:127-154). -/
def installMethods (o : Nat) : List (Kind × Nat × Val) → Act σ Unit
  | [] => fun s => (s, some ())
  | (kind, n, f) :: ms => fun s =>
    match addPrivate o kind n f s with
    | (s, none) => (s, none)
    | (s, some ()) => installMethods o ms s

def installFields (o : Nat) : List (Name × Option Val) → Act σ Unit
  | [] => fun s => (s, some ())
  | (name, init) :: fs => fun s =>
    match defineField W o name init s with
    | (s, none) => (s, none)
    | (s, some ()) => installFields o fs s

/-- `rjs_initialize_instance_elements` (rjs_function.c:107-158) for a class that is ready. -/
def initInstance (cl : Clazz) (o : Nat) : Act σ Unit := fun s =>
  match installMethods o cl.methods s with
  | (s, none) => (s, none)
  | (s, some ()) => installFields W o cl.fields s

end

end Verif.Class
