import Verif.Model.RBT
/-
What is expected of the red black tree.
-/
namespace Verif.RBT.Spec

/-- The keys in the order of an in-order walk. -/
def keys : Tree → List Nat
  | .leaf => []
  | .node _ l k r => keys l ++ k :: keys r

/-- The set of keys after a history which began with the set `s`. -/
def after : List Op → (Nat → Prop) → Nat → Prop
  | [], s => s
  | .insert k :: ops, s => after ops fun x => x = k ∨ s x
  | .remove k :: ops, s => after ops fun x => x ≠ k ∧ s x

/-- No red node has a red child. -/
def NoRedRed : Tree → Prop
  | .leaf => True
  | .node c l _ r =>
    NoRedRed l ∧ NoRedRed r ∧ (c = .red → isBlack l = true ∧ isBlack r = true)

/-- Every path from the root to a leaf has `h` black nodes. -/
def BlackHeight : Tree → Nat → Prop
  | .leaf, h => h = 0
  | .node .red l _ r, h => BlackHeight l h ∧ BlackHeight r h
  | .node .black l _ r, h => ∃ h', h = h' + 1 ∧ BlackHeight l h' ∧ BlackHeight r h'

def height : Tree → Nat
  | .leaf => 0
  | .node _ l _ r => max (height l) (height r) + 1

def size : Tree → Nat
  | .leaf => 0
  | .node _ l _ r => size l + size r + 1

/-- `m` is the next element of `s` above `k`. -/
def IsNext (s : Nat → Prop) (k m : Nat) : Prop := s m ∧ k < m ∧ ∀ x, s x → k < x → m ≤ x

/-- `m` is the next element of `s` below `k`. -/
def IsPrev (s : Nat → Prop) (k m : Nat) : Prop := s m ∧ m < k ∧ ∀ x, s x → x < k → x ≤ m

/-- The tree is in order and balanced. -/
structure OK (t : Tree) : Prop where
  sorted : (keys t).Pairwise (· < ·)
  noRedRed : NoRedRed t
  blackHeight : ∃ h, BlackHeight t h
  blackRoot : isBlack t = true

end Verif.RBT.Spec
