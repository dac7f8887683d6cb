import Verif.Model.Object
/-
What the properties of objects are meant to do (ECMAScript, sections "ValidateAndApplyPropertyDescriptor",
"CompletePropertyDescriptor" and "OrdinaryOwnPropertyKeys"), without the representation the code uses.
-/
namespace Verif.Obj.Spec

/-- A property. -/
inductive Prp where
  | data (v : Val) (writable enumerable configurable : Bool)
  | acc (get set : Val) (enumerable configurable : Bool)
deriving DecidableEq

/-- The descriptor a program sees. -/
def Prp.report : Prp → Fields
  | .data v w e c => { value := some v, writable := some w, enumerable := some e, configurable := some c }
  | .acc g s e c => { get := some g, set := some s, enumerable := some e, configurable := some c }

def Prp.enumerable : Prp → Bool
  | .data _ _ e _ => e
  | .acc _ _ e _ => e

def Prp.configurable : Prp → Bool
  | .data _ _ _ c => c
  | .acc _ _ _ c => c

def isAccessor (f : Fields) : Bool := f.get.isSome || f.set.isSome
def isData (f : Fields) : Bool := f.value.isSome || f.writable.isSome

/-- A field is absent, or has the value `x`. -/
def agrees {α : Type} [BEq α] (a : Option α) (x : α) : Bool :=
  match a with
  | none => true
  | some y => y == x

/-- The object given is a descriptor at all: getters and setters are functions or undefined, and
accessor and data fields are not mixed. -/
def valid (callable : Val → Bool) (f : Fields) : Bool :=
  (match f.get with | none => true | some g => callable g || g == .undef) &&
  (match f.set with | none => true | some s => callable s || s == .undef) &&
  !(isAccessor f && isData f)

/-- A property which did not exist before: absent fields have their defaults. -/
def fresh (f : Fields) : Prp :=
  if isAccessor f then
    .acc (f.get.getD .undef) (f.set.getD .undef) (f.enumerable.getD false) (f.configurable.getD false)
  else
    .data (f.value.getD .undef) (f.writable.getD false) (f.enumerable.getD false) (f.configurable.getD false)

/-- May the property be redefined so? -/
def allowed (f : Fields) (p : Prp) : Bool :=
  p.configurable ||
    ((f.configurable != some true) && agrees f.enumerable p.enumerable &&
      match p with
      | .data v w _ _ => !isAccessor f && (w || ((f.writable != some true) && agrees f.value v))
      | .acc g s _ _ => !isData f && agrees f.get g && agrees f.set s)

/-- The property after the redefinition. -/
def applied (f : Fields) : Prp → Prp
  | .data v w e c =>
    if isAccessor f then
      .acc (f.get.getD .undef) (f.set.getD .undef) (f.enumerable.getD e) (f.configurable.getD c)
    else .data (f.value.getD v) (f.writable.getD w) (f.enumerable.getD e) (f.configurable.getD c)
  | .acc g s e c =>
    if isData f then
      .data (f.value.getD .undef) (f.writable.getD false) (f.enumerable.getD e) (f.configurable.getD c)
    else .acc (f.get.getD g) (f.set.getD s) (f.enumerable.getD e) (f.configurable.getD c)

/-- `a` stands before `b`. -/
def Before {α : Type} (a b : α) (l : List α) : Prop := ∃ x y z, l = x ++ a :: y ++ b :: z

/-- The prototype of `i` is `j`, or the prototype of its prototype, and so on. -/
inductive Up (h : Heap) : Nat → Nat → Prop
  | one {i j : Nat} {o : Obj} (hi : h[i]? = some o) (hp : o.proto = some j) : Up h i j
  | more {i j k : Nat} {o : Obj} (hi : h[i]? = some o) (hp : o.proto = some j) (t : Up h j k) : Up h i k

/-- `o` has a property with key `k`. -/
def Has (o : Obj) (k : Key) : Prop := ∃ f, report o k = some (some f)

/-- What a search for `k` starting at the object `v` sees: the property of the first object of the
chain which has one, or none. -/
def Seen (h : Heap) (v : Nat) (k : Key) : Option Prp → Prop
  | none => ∀ j oj, (j = v ∨ Up h v j) → h[j]? = some oj → ¬ Has oj k
  | some p => ∃ i oi, (i = v ∨ Up h v i) ∧ h[i]? = some oi ∧ report oi k = some (some p.report) ∧
      ∀ j oj, (j = v ∨ Up h v j) → Up h j i → h[j]? = some oj → ¬ Has oj k

/-- What an assignment comes to. -/
inductive Assign where
  | refuse
  | call (setter : Val)
  | define (f : Fields)
deriving DecidableEq

/-- ECMAScript, OrdinarySetWithOwnDescriptor: the property seen, the own property of the receiver
(`none`: the receiver is not an object), the value. -/
def assign (seen : Option Prp) (own : Option (Option Prp)) (v : Val) : Assign :=
  match seen with
  | some (.acc _ s _ _) => if s = .undef then .refuse else .call s
  | some (.data _ false _ _) => .refuse
  | _ =>
    match own with
    | none => .refuse
    | some (some (.acc ..)) => .refuse
    | some (some (.data _ w _ _)) => if w then .define { value := some v } else .refuse
    | some none => .define { value := some v, writable := some true, enumerable := some true, configurable := some true }

end Verif.Obj.Spec
