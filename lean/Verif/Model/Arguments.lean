import Verif.Model.Object

/-!
Model of the `arguments` object of a sloppy function with simple parameters ("mapped arguments",
`/repo/src/lib/rjs_arguments_object.c`).

Only the properties whose names are array indices are modelled.  How an ordinary object keeps them is
the subject of C30 and C55; here the object has a map from indices to properties.  The prototype
(`Object.prototype`) is taken to have no such properties.  A parameter is named by a number; the
bindings of the parameters are a map: parameters are mutable and have been given their values when the
object can be used (rjs_bc_gen.c:4490-4511).
-/
namespace Verif.Args
open Obj (Val P Desc Fields descOf newProp check change noFlags isAcc isData)

/-- `RJS_ArgumentsObject` (include/rjs_arguments_object.h), with the environment. -/
structure St where
  /-- The properties kept by the ordinary object. -/
  props : Nat → Option P
  /-- `ao->names`, of length `ao->argc`; `none` for `undefined`. -/
  names : List (Option Nat)
  /-- The bindings of the parameters. -/
  env : Nat → Val
  ext : Bool

/-- Change a map at one place. -/
def upd {α : Type} (f : Nat → α) (i : Nat) (x : α) : Nat → α := fun j => if j = i then x else f j

/-- `arguments_has_property` (rjs_arguments_object.c:56-80), for an index: the name found. -/
def mapped (s : St) (i : Nat) : Option Nat :=
  if i ≥ s.names.length then none else s.names.getD i none

/-- `arguments_delete` (120-131). -/
def unmap (s : St) (i : Nat) : St := { s with names := s.names.set i none }

/-- `arguments_set` (101-118) of the parameter found. -/
def setParam (s : St) (q : Nat) (v : Val) : St := { s with env := upd s.env q v }

/-- `arguments_object_op_get_own_property` (133-150). -/
def getOwn (s : St) (i : Nat) : Option Desc :=
  match s.props i with
  | none => none
  | some p =>
    match mapped s i with
    | some q => some { descOf p with value := s.env q }
    | none => some (descOf p)

/-- `rjs_ordinary_object_op_define_own_property` (rjs_object.c:908-933): the current property is asked
of the object itself, so it is that of `getOwn`; then `validate_and_apply_property`
(rjs_object.c:706-847). -/
def defineOrdinary (s : St) (i : Nat) (d : Desc) : St × Bool :=
  match getOwn s i with
  | none => if s.ext then ({ s with props := upd s.props i (some (newProp d)) }, true) else (s, false)
  | some curr =>
    if noFlags d then (s, true)
    else if !check d curr then (s, false)
    else
      match s.props i with
      | none => (s, false)
      | some p => ({ s with props := upd s.props i (some (change p d curr)) }, true)

/-- `arguments_object_op_define_own_property` (152-200). -/
def define (s : St) (i : Nat) (d : Desc) : St × Bool :=
  match mapped s i with
  | none => defineOrdinary s i d
  | some q =>
    let nd :=
      if isData d && (!d.hasV && d.hasW && !d.w) then { d with value := s.env q, hasV := true } else d
    match defineOrdinary s i nd with
    | (s, false) => (s, false)
    | (s, true) =>
      if isAcc d then (unmap s i, true)
      else
        let s := if d.hasV then setParam s q d.value else s
        (if d.hasW && !d.w then unmap s i else s, true)

/-- What an operation answers. -/
inductive Out
  | bool (b : Bool)
  | value (v : Val)
  | desc (f : Option Fields)
  /-- A getter or a setter is called. -/
  | call (f : Val)
  | throw
  | unit
  deriving DecidableEq

/-- `rjs_ordinary_object_op_get` (rjs_object.c:985-1028). -/
def getOrdinary (s : St) (i : Nat) : Out :=
  match getOwn s i with
  | none => .value .undef
  | some d =>
    if isData d then .value d.value
    else if d.get = .undef then .value .undef else .call d.get

/-- `arguments_object_op_get` (202-219). -/
def get (s : St) (i : Nat) : Out :=
  match mapped s i with
  | none => getOrdinary s i
  | some q => .value (s.env q)

/-- The descriptor of `rjs_create_data_property`. -/
def dataDesc (v : Val) : Desc :=
  { hasV := true, hasW := true, hasE := true, hasC := true, w := true, e := true, c := true, value := v }

/-- The descriptor of lines 1100-1101 of rjs_object.c: only a value. -/
def valueDesc (v : Val) : Desc := { hasV := true, value := v }

/-- `rjs_ordinary_object_op_set` (rjs_object.c:1040-1122), the object being the receiver. -/
def setOrdinary (s : St) (i : Nat) (v : Val) : St × Out :=
  match getOwn s i with
  | none =>
    match define s i (dataDesc v) with
    | (s, b) => (s, .bool b)
  | some d =>
    if isData d then
      if !d.w then (s, .bool false)
      else
        match define s i (valueDesc v) with
        | (s, b) => (s, .bool b)
    else if d.set = .undef then (s, .bool false)
    else (s, .call d.set)

/-- `arguments_object_op_set` (221-240), the object being the receiver. -/
def set (s : St) (i : Nat) (v : Val) : St × Out :=
  match mapped s i with
  | none => setOrdinary s i v
  | some q => setOrdinary (setParam s q v) i v

/-- `rjs_ordinary_object_op_delete` (rjs_object.c:1133-1162). -/
def deleteOrdinary (s : St) (i : Nat) : St × Bool :=
  match getOwn s i with
  | none => (s, true)
  | some d => if d.c then ({ s with props := upd s.props i none }, true) else (s, false)

/-- `arguments_object_op_delete` (242-259). -/
def delete (s : St) (i : Nat) : St × Bool :=
  match mapped s i with
  | none => deleteOrdinary s i
  | some _ =>
    match deleteOrdinary s i with
    | (s, true) => (unmap s i, true)
    | (s, false) => (s, false)

/-- What a program may do with the object and the parameters. -/
inductive Op
  | define (i : Nat) (f : Fields)
  | set (i : Nat) (v : Val)
  | get (i : Nat)
  | getOwn (i : Nat)
  | delete (i : Nat)
  | preventExtensions
  /-- `q = v`, and the value of `q`. -/
  | assign (q : Nat) (v : Val)
  | read (q : Nat)

def step (callable : Val → Bool) (s : St) : Op → St × Out
  | .define i f =>
    match Obj.toDesc callable f with
    | none => (s, .throw)
    | some d => ((define s i d).1, .bool (define s i d).2)
  | .set i v => set s i v
  | .get i => (s, get s i)
  | .getOwn i => (s, .desc ((getOwn s i).map Obj.fromDesc))
  | .delete i => ((delete s i).1, .bool (delete s i).2)
  | .preventExtensions => ({ s with ext := false }, .unit)
  | .assign q v => (setParam s q v, .unit)
  | .read q => (s, .value (s.env q))

def run (callable : Val → Bool) : St → List Op → St × List Out
  | s, [] => (s, [])
  | s, op :: ops =>
    ((run callable (step callable s op).1 ops).1,
      (step callable s op).2 :: (run callable (step callable s op).1 ops).2)

/-! ## The new object -/

/-- `bi->param_index` (rjs_code_gen_inc.c:176-187): the last place of the name in the list of
parameters. -/
def paramIndex (formals : List Nat) (q : Nat) : Option Nat :=
  (List.range formals.length).foldl (fun r i => if formals.getD i 0 = q then some i else r) none

/-- The loop over the bindings of the parameters (rjs_arguments_object.c:406-420). -/
def mapNames (formals : List Nat) : List Nat → List (Option Nat) → List (Option Nat)
  | [], names => names
  | q :: bs, names =>
    match paramIndex formals q with
    | none => mapNames formals bs names
    | some i => mapNames formals bs (if i < names.length then names.set i (some q) else names)

/-- The properties made by the first loop (400-404). -/
def argProps (args : List Val) : Nat → Option P := fun i =>
  match args[i]? with
  | none => none
  | some v => some (newProp (dataDesc v))

/-- `rjs_mapped_arguments_object_new` (367-444).  `bindings`: the names of the parameters, each once
(`bg`).  The parameters are given the values of the arguments (rjs_bc_gen.c:4511); of equal names the
last counts. -/
def new (formals bindings : List Nat) (args : List Val) : St where
  props := argProps args
  names := mapNames formals bindings (List.replicate args.length none)
  env := fun q => match paramIndex formals q with
    | none => .undef
    | some i => args.getD i .undef
  ext := true

end Verif.Args
