import Verif.Model.Finalization
/-
What a finalization registry is meant to do (ECMAScript, FinalizationRegistry): a list of
registrations which do not influence each other.
-/
namespace Verif.Finalization.Spec

structure St where
  regs : List Cb
  jobs : List (Nat × Nat)

def init : St := ⟨[], []⟩

def matches_ (r k : Nat) (c : Cb) : Bool := decide (c.registry = r ∧ c.token = some k)

def step (s : St) : Op → St × Option Bool
  | .register c => ({ s with regs := s.regs ++ [c] }, none)
  | .unregister r k =>
    ({ s with regs := s.regs.filter fun c => !matches_ r k c }, some (s.regs.any (matches_ r k)))
  | .collect dead =>
    ({ regs := s.regs.filter fun c => !dead c.target,
       jobs := s.jobs ++ (s.regs.filter fun c => dead c.target).map fun c => (c.registry, c.held) },
     none)

def run : St → List Op → St × List (Option Bool)
  | s, [] => (s, [])
  | s, op :: ops =>
    let r := step s op
    let q := run r.1 ops
    (q.1, r.2 :: q.2)

/-- No registration uses a token which a registration still waiting in the same registry
uses. -/
def Distinct : St → List Op → Prop
  | _, [] => True
  | s, op :: ops =>
    (match op with
      | .register c => ∀ k, c.token = some k → ∀ d ∈ s.regs, matches_ c.registry k d = false
      | _ => True) ∧
    Distinct (step s op).1 ops

end Verif.Finalization.Spec
