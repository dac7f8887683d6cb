import Verif.Spec.Object
/-
What a proxy may answer, given its target (ECMAScript, "Invariants of the Essential Internal
Methods", and the notes on each operation of proxies).
-/
namespace Verif.Proxy.Spec
open Obj (Obj Key Val Fields)
open Obj.Spec (Prp)

/-- The object has the property `p` with key `k`. -/
def Own (o : Obj) (k : Key) (p : Prp) : Prop := Obj.report o k = some (some p.report)

/-- The prototype of an object which is not extensible is reported as it is, and cannot be
changed. -/
def MayProto (o : Obj) (p : Option Nat) : Prop := o.ext = false → p = o.proto

/-- The property may be said not to exist (or to have been deleted): if it exists, it is
configurable and the object is extensible. -/
def MayAbsent (o : Obj) (k : Key) : Prop := ∀ p, Own o k p → p.configurable = true ∧ o.ext = true

/-- The value which may be reported: that of a constant property, and undefined if there is no
getter and never will be. -/
def MayGet (o : Obj) (k : Key) (v : Val) : Prop :=
  (∀ x e, Own o k (.data x false e false) → v = x) ∧
  (∀ s e, Own o k (.acc .undef s e false) → v = .undef)

/-- The assignment may be said to have succeeded: not if the property is constant with another
value, or has no setter and never will have one. -/
def MaySet (o : Obj) (k : Key) (v : Val) : Prop :=
  (∀ x e, Own o k (.data x false e false) → v = x) ∧
  (∀ g e, ¬ Own o k (.acc g .undef e false))

/-- A property `q` reported for a property `p` which is not configurable: `q` is as little
configurable; the same kind; and constant fields are reported as they are. -/
def Faithful (q p : Prp) : Prop :=
  q.configurable = false ∧ q.enumerable = p.enumerable ∧
  match p, q with
  | .data v w _ _, .data v' w' _ _ => w = false → w' = false ∧ v' = v
  | .acc g s _ _, .acc g' s' _ _ => g' = g ∧ s' = s
  | _, _ => False

/-- The property which may be reported. -/
def MayReport (o : Obj) (k : Key) (q : Prp) : Prop :=
  (o.ext = false → ∃ p, Own o k p) ∧
  (∀ p, Own o k p → p.configurable = false → Faithful q p) ∧
  (q.configurable = false → ∃ p, Own o k p ∧ p.configurable = false) ∧
  (∀ v e, q = .data v false e false → ∃ v' e', Own o k (.data v' false e' false))

/-- The definition may be said to have succeeded. -/
def MayDefine (o : Obj) (k : Key) (f : Fields) : Prop :=
  (o.ext = false → ∃ p, Own o k p) ∧
  (∀ p, Own o k p → Obj.Spec.allowed f p = true) ∧
  (f.configurable = some false → ∃ p, Own o k p ∧ p.configurable = false) ∧
  (f.writable = some false → ∀ v e, ¬ Own o k (.data v true e false))

/-- The keys which may be reported: each once, all those which are not configurable, and exactly
those there are if the object is not extensible. -/
def MayKeys (o : Obj) (ks : List Key) : Prop :=
  ks.Nodup ∧
  (∀ k p, Own o k p → p.configurable = false → k ∈ ks) ∧
  (o.ext = false → ∀ k, k ∈ ks ↔ ∃ p, Own o k p)

end Verif.Proxy.Spec
