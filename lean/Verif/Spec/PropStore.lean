import Verif.Model.PropStore
/-
The indexed properties of an object as a map.
-/
namespace Verif.PropStore.Spec

/-- The map after an operation.  `cut` removes what is at or above `len`, from the end, up to the
last property which is not configurable. -/
noncomputable def step {α : Type} (cfg : α → Bool) (m : Nat → Option α) : Op α → Nat → Option α
  | .put i p => fun k => if k = i then some p else m k
  | .del i => fun k => if k = i then none else m k
  | .cut len => fun k =>
    open Classical in
    if len ≤ k ∧ ∀ j p, k ≤ j → m j = some p → cfg p = true then none else m k

noncomputable def run {α : Type} (cfg : α → Bool) : (Nat → Option α) → List (Op α) → Nat → Option α
  | m, [] => m
  | m, a :: l => run cfg (step cfg m a) l

/-- An index above 16 is stored. -/
def IsBig {α : Type} : Op α → Prop
  | .put i _ => 16 < i
  | _ => False

/-- The index is an array index; and if an index above 16 was stored before (`big`), an index
below 3 is not stored while there is no indexed property. -/
def Ok {α : Type} (big : Prop) (m : Nat → Option α) : Op α → Prop
  | .put i _ => i < 2 ^ 32 - 1 ∧ (i < 3 → (∀ k, m k = none) → ¬ big)
  | _ => True

/-- The histories in which nothing goes wrong.  `big`: an index above 16 has been stored before. -/
def Safe {α : Type} (cfg : α → Bool) : Prop → (Nat → Option α) → List (Op α) → Prop
  | _, _, [] => True
  | big, m, a :: l => Ok big m a ∧ Safe cfg (big ∨ IsBig a) (step cfg m a) l

end Verif.PropStore.Spec
