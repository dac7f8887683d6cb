import Verif.Model.Waiter
/-
Specification of waiting and waking: the agents waiting at a location, in the order in which they
started to wait, as told by what has happened.
-/
namespace Verif.Waiter

/-- What an event means for the agents waiting at `pos`. -/
def queueStep (pos : Nat) (q : List Nat) : Event → List Nat
  | .enter p a => if p = pos then q ++ [a] else q
  | .leave p a _ => if p = pos then q.erase a else q
  | .wakes _ p a => if p = pos then q.erase a else q
  | _ => q

/-- The agents waiting at `pos` and not yet woken, the longest waiting first. -/
def queue (pos : Nat) (t : List Event) : List Nat := t.foldl (queueStep pos) []

/-- The number of agents that `notify` with count `c` has to wake if there are `k`. -/
def limit (c : Option Nat) (k : Nat) : Nat :=
  match c with
  | none => k
  | some c => min c k

/-- The states that can be reached, if the steps are restricted to those that `P` allows. -/
inductive Run (P : Sys → Op → Prop) : Sys → Prop
  | start (h mem) : Run P (start h mem)
  | step {s s' o} : Run P s → P s o → step s o = .next s' → Run P s'

/-- From one state to another, by steps that `P` allows. -/
inductive Steps (P : Sys → Op → Prop) (s : Sys) : Sys → Prop
  | refl : Steps P s s
  | step {s' s'' o} : Steps P s s' → P s' o → step s' o = .next s'' → Steps P s s''

/-- The timeouts are less than 2^64 milliseconds. -/
def Small : Op → Prop
  | .wait _ _ _ (some t) => t < 2 ^ 64
  | _ => True

/-- All timeouts are less than 2^64 milliseconds, nothing else is assumed. -/
def Any (_ : Sys) (o : Op) : Prop := Small o

/-- The agent is in the critical part of `notify`. -/
def Pc.notifies : Pc → Bool
  | .noteFind _ _ => true
  | .noteLoop _ _ _ _ => true
  | _ => false

/-- There are no spurious wake-ups, and no time is over just while somebody notifies: no timer ends
while an agent notifies, and no agent starts to notify while one whose time is over has not returned
from its `wait`. -/
def Calm (s : Sys) (o : Op) : Prop :=
  Small o ∧ (∀ a, o ≠ .spurious a) ∧
  (∀ a, o = .timer a → ∀ b, (s.pc b).notifies = false) ∧
  (∀ a x pos c, o = .run a x → s.pc a = .noteLock pos c → ∀ b p w, s.pc b ≠ .roused p w true)

/-- No agent expects the value `u` at `pos`, nor writes to `pos`. -/
def Settled (pos : Nat) (u : Int) : Op → Prop
  | .wait _ p v _ => p = pos → v ≠ u
  | .store p _ => p ≠ pos
  | _ => True

/-- The step is not a new call made by agent `a`. -/
def NoCall (a : Nat) : Op → Prop
  | .wait b _ _ _ => b ≠ a
  | .notify b _ _ => b ≠ a
  | _ => True

end Verif.Waiter
