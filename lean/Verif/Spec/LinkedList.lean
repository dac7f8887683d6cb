import Verif.Model.LinkedList
/-
Specification of the linked lists: every head stands for a sequence of nodes.
-/
namespace Verif.LinkedList.Spec

/-- The sequences in memory, by the address of the head. -/
abbrev World := Nat → Option (List Nat)

/-- An address is in use by a list. -/
def Used (m : World) (a : Nat) : Prop := ∃ l xs, m l = some xs ∧ a ∈ l :: xs

/-- What the caller of an operation has to ensure: new nodes are not in a list, removed
nodes are in one, joined lists are two lists. -/
def Pre (m : World) : Op → Prop
  | .init l => ¬ Used m l
  | .append l n => (m l).isSome ∧ ¬ Used m n
  | .prepend l n => (m l).isSome ∧ ¬ Used m n
  | .remove n => ∃ l xs, m l = some xs ∧ n ∈ xs
  | .join l1 l2 => (m l1).isSome ∧ (m l2).isSome ∧ l1 ≠ l2

/-- What an operation does to the sequences. -/
def step (m : World) : Op → World
  | .init l => fun a => if a = l then some [] else m a
  | .append l n => fun a => if a = l then (m a).map (· ++ [n]) else m a
  | .prepend l n => fun a => if a = l then (m a).map (n :: ·) else m a
  | .remove n => fun a => (m a).map (·.filter (· ≠ n))
  | .join l1 l2 =>
    -- a head whose nodes were moved away is no list any more
    fun a =>
      if a = l1 then (m a).map (· ++ (m l2).getD [])
      else if a = l2 ∧ (m l2) ≠ some [] then none
      else m a

/-- The operations of a sequence are all used properly. -/
def Valid : World → List Op → Prop
  | _, [] => True
  | m, o :: os => Pre m o ∧ Valid (step m o) os

def run : World → List Op → World
  | m, [] => m
  | m, o :: os => run (step m o) os

end Verif.LinkedList.Spec
