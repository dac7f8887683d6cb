/-
Specification of environment records: ECMA-262 §9.1.1 (declarative, object and global environment
records) and §9.1.2 / §6.2.5 (resolving a name and using the reference), without any cache.

Nothing here refers to the model; the records hold the bindings themselves, and a name is resolved
by walking outwards every time.
-/

namespace Verif.Env.Spec

/-- A binding of a declarative record; `value = none` until it is initialised. -/
structure Binding where
  mutable : Bool
  strict : Bool
  deletable : Bool
  value : Option Nat
  deriving DecidableEq, Repr

/-- The three sorts of record. -/
inductive Form where
  | declarative | object | global
  deriving DecidableEq, Repr

/-- An environment record. -/
structure Record where
  form : Form
  outer : Option Nat
  bindings : List (Nat × Binding)
  object : List (Nat × Nat)
  deriving DecidableEq, Repr

/-- Answers. -/
inductive Answer where
  | done | value (v : Nat) | truth (b : Bool) | referenceError | typeError | record (e : Option Nat)
  deriving DecidableEq, Repr

/-- The value of a key. -/
def get {α : Type} (l : List (Nat × α)) (n : Nat) : Option α :=
  (l.find? fun p => p.1 = n).map Prod.snd

/-- The list with the value of `n` replaced, or added at the end. -/
def put {α : Type} (l : List (Nat × α)) (n : Nat) (v : α) : List (Nat × α) :=
  if (get l n).isSome then l.map fun p => if p.1 = n then (n, v) else p else l ++ [(n, v)]

/-- The list without `n`. -/
def drop {α : Type} (l : List (Nat × α)) (n : Nat) : List (Nat × α) :=
  l.filter fun p => ¬ p.1 = n

/-- HasBinding (§9.1.1.1.1, §9.1.1.2.1, §9.1.1.4.1). -/
def Record.has (r : Record) (n : Nat) : Bool :=
  match r.form with
  | .declarative => (get r.bindings n).isSome
  | .object => (get r.object n).isSome
  | .global => (get r.bindings n).isSome || (get r.object n).isSome

/-- Is `n` looked up in the object of the record? -/
def Record.inObject (r : Record) (n : Nat) : Bool :=
  match r.form with
  | .declarative => false
  | .object => true
  | .global => (get r.bindings n).isNone

/-- A new binding. -/
def fresh (imm strict del : Bool) : Binding :=
  { mutable := !imm, strict := imm && strict, deletable := !imm && del, value := none }

/-- CreateMutableBinding, CreateImmutableBinding on a declarative record (§9.1.1.1.2-3): the name
must not be bound yet. -/
def Record.create (r : Record) (n : Nat) (imm strict del : Bool) : Option Record :=
  if (get r.bindings n).isSome then none
  else some { r with bindings := r.bindings ++ [(n, fresh imm strict del)] }

/-- GetBindingValue (§9.1.1.1.6, §9.1.1.2.6, §9.1.1.4.6); none: the specification asserts that
this does not happen. -/
def Record.read (r : Record) (n : Nat) (strict : Bool) : Option Answer :=
  if r.inObject n then
    match get r.object n with
    | some v => some (.value v)
    | none => some (if strict then .referenceError else .value 0)
  else
    match get r.bindings n with
    | none => none
    | some b =>
      match b.value with
      | none => some .referenceError
      | some v => some (.value v)

/-- InitializeBinding (§9.1.1.1.4, §9.1.1.2.4, §9.1.1.4.4): the binding must exist and must not be
initialised. -/
def Record.initialize (r : Record) (n v : Nat) : Option Record :=
  if r.inObject n then some { r with object := put r.object n v }
  else
    match get r.bindings n with
    | none => none
    | some b =>
      match b.value with
      | some _ => none
      | none => some { r with bindings := put r.bindings n { b with value := some v } }

/-- SetMutableBinding (§9.1.1.1.5, §9.1.1.2.5, §9.1.1.4.5). -/
def Record.assign (r : Record) (n v : Nat) (strict : Bool) : Record × Answer :=
  if r.inObject n then
    if (get r.object n).isNone && strict then (r, .referenceError)
    else ({ r with object := put r.object n v }, .done)
  else
    match get r.bindings n with
    | none =>
      if strict then (r, .referenceError)
      else
        ({ r with bindings := r.bindings ++ [(n, { fresh false false true with value := some v })] },
          .done)
    | some b =>
      match b.value with
      | none => (r, .referenceError)
      | some _ =>
        if b.mutable then
          ({ r with bindings := put r.bindings n { b with value := some v } }, .done)
        else (r, if b.strict || strict then .typeError else .done)

/-- DeleteBinding (§9.1.1.1.7, §9.1.1.2.7, §9.1.1.4.7). -/
def Record.delete (r : Record) (n : Nat) : Option (Record × Bool) :=
  if r.inObject n then some ({ r with object := drop r.object n }, true)
  else
    match get r.bindings n with
    | none => none
    | some b =>
      if b.deletable then some ({ r with bindings := drop r.bindings n }, true) else some (r, false)

/-- A `var` of a direct eval (EvalDeclarationInstantiation §19.2.1.3 steps 16-18): a new name gets a
deletable binding holding undefined. -/
def Record.evalVar (r : Record) (n : Nat) : Record :=
  match r.form with
  | .declarative =>
    if (get r.bindings n).isSome then r
    else { r with bindings := r.bindings ++ [(n, { fresh false false true with value := some 0 })] }
  | _ => if (get r.object n).isSome then r else { r with object := put r.object n 0 }

/-- A function of a direct eval (§19.2.1.3 step 17). -/
def Record.evalFunc (r : Record) (n v : Nat) : Record :=
  match r.form with
  | .declarative =>
    if (get r.bindings n).isSome then (r.assign n v false).1
    else { r with bindings := r.bindings ++ [(n, { fresh false false true with value := some v })] }
  | _ => { r with object := put r.object n v }

/-- A reference: a name and the record it was found in. -/
structure Reference where
  name : Nat
  base : Option Nat
  deriving DecidableEq, Repr

/-- The world: the records; record 0 is the global one. -/
structure World where
  records : List Record
  references : List Reference
  deriving DecidableEq, Repr

/-- `Found rs e n a`: the walk from `e` outwards finds `n` in record `a`, or nowhere
(ResolveBinding §9.4.2, GetIdentifierReference §9.1.2.1). -/
inductive Found (rs : List Record) : Option Nat → Nat → Option Nat → Prop where
  | nowhere {n : Nat} : Found rs none n none
  | here {e n : Nat} {r : Record} : rs[e]? = some r → r.has n = true → Found rs (some e) n (some e)
  | outside {e n : Nat} {r : Record} {a : Option Nat} :
      rs[e]? = some r → r.has n = false → Found rs r.outer n a → Found rs (some e) n a

/-- What a program does. -/
inductive Action where
  | enter (object : Bool) (outer : Nat) (decls : List (Nat × Bool × Bool)) (props : List (Nat × Nat))
  | declare (e n : Nat) (imm strict : Bool)
  | resolve (e n : Nat)
  | direct (e n : Nat)
  | init (r v : Nat)
  | get (r : Nat) (strict : Bool)
  | set (r v : Nat) (strict : Bool)
  | delete (r : Nat) (strict : Bool)
  | putProp (e n v : Nat)
  | delProp (e n : Nat)
  | evalVar (e n : Nat)
  | evalFunc (e n v : Nat)
  deriving DecidableEq, Repr

/-- Declare a list of bindings in a record. -/
def Record.declareAll (r : Record) : List (Nat × Bool × Bool) → Option Record
  | [] => some r
  | (n, imm, strict) :: l =>
    match r.create n imm strict false with
    | some r => r.declareAll l
    | none => none

/-- Replace a record. -/
def World.set (w : World) (e : Nat) (r : Record) : World := { w with records := w.records.set e r }

/-- Keep a reference. -/
def World.push (w : World) (n : Nat) (e : Option Nat) : World :=
  { w with references := w.references ++ [{ name := n, base := e }] }

/-- `Step w a w' o`: action `a` is permitted in world `w`, leads to `w'` and answers `o`. -/
inductive Step : World → Action → World → Answer → Prop where
  | enter {w : World} {object : Bool} {outer : Nat} {decls props} {ro r : Record} :
      w.records[outer]? = some ro →
      Record.declareAll
        { form := if object then .object else .declarative, outer := some outer, bindings := [],
          object := props } decls = some r →
      Step w (.enter object outer decls props)
        { w with records := w.records ++ [r] } (.record (some w.records.length))
  | declare {w : World} {e n : Nat} {imm strict : Bool} {r r' : Record} :
      w.records[e]? = some r → r.create n imm strict false = some r' →
      Step w (.declare e n imm strict) (w.set e r') .done
  | redeclare {w : World} {e n : Nat} {imm strict : Bool} {r : Record} :
      w.records[e]? = some r → r.form = .global → (Spec.get r.bindings n).isSome →
      Step w (.declare e n imm strict) w .referenceError
  | resolve {w : World} {e n : Nat} {a : Option Nat} :
      Found w.records (some e) n a → Step w (.resolve e n) (w.push n a) (.record a)
  | direct {w : World} {e n : Nat} {r : Record} :
      w.records[e]? = some r → r.has n = true →
      Step w (.direct e n) (w.push n (some e)) (.record (some e))
  | init {w : World} {r v : Nat} {x : Reference} {e : Nat} {rec rec' : Record} :
      w.references[r]? = some x → x.base = some e → w.records[e]? = some rec →
      rec.initialize x.name v = some rec' → Step w (.init r v) (w.set e rec') .done
  | get {w : World} {r : Nat} {strict : Bool} {x : Reference} {e : Nat} {rec : Record} {o : Answer} :
      w.references[r]? = some x → x.base = some e → w.records[e]? = some rec →
      rec.read x.name strict = some o → Step w (.get r strict) w o
  | getNowhere {w : World} {r : Nat} {strict : Bool} {x : Reference} :
      w.references[r]? = some x → x.base = none → Step w (.get r strict) w .referenceError
  | set {w : World} {r v : Nat} {strict : Bool} {x : Reference} {e : Nat} {rec : Record} :
      w.references[r]? = some x → x.base = some e → w.records[e]? = some rec →
      Step w (.set r v strict) (w.set e (rec.assign x.name v strict).1)
        (rec.assign x.name v strict).2
  | setNowhere {w : World} {r v : Nat} {x : Reference} {rec : Record} :
      w.references[r]? = some x → x.base = none → w.records[0]? = some rec →
      Step w (.set r v false) (w.set 0 { rec with object := put rec.object x.name v }) .done
  | setNowhereStrict {w : World} {r v : Nat} {x : Reference} :
      w.references[r]? = some x → x.base = none → Step w (.set r v true) w .referenceError
  | delete {w : World} {r : Nat} {strict b : Bool} {x : Reference} {e : Nat} {rec rec' : Record} :
      w.references[r]? = some x → x.base = some e → w.records[e]? = some rec →
      rec.delete x.name = some (rec', b) → Step w (.delete r strict) (w.set e rec') (.truth b)
  | deleteNowhere {w : World} {r : Nat} {x : Reference} :
      w.references[r]? = some x → x.base = none → Step w (.delete r false) w (.truth true)
  | deleteNowhereStrict {w : World} {r : Nat} {x : Reference} :
      w.references[r]? = some x → x.base = none → Step w (.delete r true) w .referenceError
  | putProp {w : World} {e n v : Nat} {rec : Record} :
      w.records[e]? = some rec →
      Step w (.putProp e n v) (w.set e { rec with object := put rec.object n v }) .done
  | delProp {w : World} {e n : Nat} {rec : Record} :
      w.records[e]? = some rec →
      Step w (.delProp e n) (w.set e { rec with object := drop rec.object n }) .done
  | evalVar {w : World} {e n : Nat} {rec : Record} :
      w.records[e]? = some rec →
      Step w (.evalVar e n) (w.set e (rec.evalVar n)) .done
  | evalFunc {w : World} {e n v : Nat} {rec : Record} :
      w.records[e]? = some rec →
      Step w (.evalFunc e n v) (w.set e (rec.evalFunc n v)) .done

/-- `Run w as w' os`: the actions one after the other. -/
inductive Run : World → List Action → World → List Answer → Prop where
  | nil {w : World} : Run w [] w []
  | cons {w w' w'' : World} {a : Action} {as : List Action} {o : Answer} {os : List Answer} :
      Step w a w' o → Run w' as w'' os → Run w (a :: as) w'' (o :: os)

end Verif.Env.Spec
