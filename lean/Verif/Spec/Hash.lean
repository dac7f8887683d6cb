import Verif.Model.Hash
/-
Specification of a finite map with insertion order: a list of the keys present, in
the order of their insertion, with their values.
-/
namespace Verif.Hash.Spec

/-- The value stored for a key. -/
def get {K V : Type} (eqv : K → K → Bool) (s : List (K × V)) (k : K) : Option V :=
  (s.find? fun e => eqv e.1 k).map (·.2)

/-- What a use of the table means. -/
def step {K V : Type} (eqv : K → K → Bool) (s : List (K × V)) :
    Op K V → Option V × List (K × V)
  | .lookup k => (get eqv s k, s)
  | .insert k v _ =>
    (get eqv s k, if (get eqv s k).isSome then s else s ++ [(k, v)])
  | .remove k => (get eqv s k, s.filter fun e => !eqv e.1 k)

def run {K V : Type} (eqv : K → K → Bool) :
    List (K × V) → List (Op K V) → List (Option V) × List (K × V)
  | s, [] => ([], s)
  | s, o :: os =>
    let q := step eqv s o
    let p := run eqv q.2 os
    (q.1 :: p.1, p.2)

/-- `eqv` compares keys, and equal keys among those in `P` have the same hash value. -/
structure KeyOps {K : Type} (P : K → Prop) (hash : K → Nat) (eqv : K → K → Bool) : Prop where
  refl : ∀ a, eqv a a = true
  symm : ∀ a b, eqv a b = true → eqv b a = true
  trans : ∀ a b c, eqv a b = true → eqv b c = true → eqv a c = true
  hash : ∀ a b, P a → P b → eqv a b = true → hash a = hash b

/-- The key of an operation. -/
def opKey {K V : Type} : Op K V → K
  | .lookup k => k
  | .insert k _ _ => k
  | .remove k => k

end Verif.Hash.Spec
