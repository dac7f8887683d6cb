import Verif.Model.Module
/-
What C44 asks of the evaluation of modules, in terms of the import graph and of what a script can
see: the order in which the bodies run, and the promises.
-/
namespace Verif.Module

/-- Module `x` depends on module `y`, or is `y`. -/
inductive Reach (G : Graph) : Nat → Nat → Prop
  | refl (x) : Reach G x x
  | step {x y z} : y ∈ G.requests x → Reach G y z → Reach G x z

/-- No module has a top level `await`. -/
def Graph.Sync (G : Graph) : Prop := ∀ m, G.tla m = false

/-- The requested modules are modules. -/
def Graph.Closed (G : Graph) : Prop := ∀ m, m < G.size → ∀ d ∈ G.requests m, d < G.size

/-- A body is started only when the bodies of all modules it imports have ended without error,
except for the modules of the same cycle. -/
def Ordered (G : Graph) (t : List Event) : Prop :=
  ∀ pre post m, t = pre ++ .start m :: post →
    ∀ d ∈ G.requests m, .done d ∈ pre ∨ Reach G d m

/-- Module `x` depends on module `y` through modules each of which is imported from outside of its
cycle. -/
inductive Above (G : Graph) : Nat → Nat → Prop
  | direct {x y} : y ∈ G.requests x → ¬ Reach G y x → Above G x y
  | through {x y z} : y ∈ G.requests x → ¬ Reach G y x → Above G y z → Above G x z

/-- More operations. -/
inductive Later (G : Graph) (s : St) : St → Prop
  | refl : Later G s s
  | step {t t' o} : Later G s t → Op.can G t o → Module.step G t o = .ok t' → Later G s t'

theorem Reach.trans {G : Graph} {x y z : Nat} (h : Reach G x y) (k : Reach G y z) :
    Reach G x z := by
  induction h with
  | refl => exact k
  | step e _ ih => exact .step e (ih k)

theorem Reach.single {G : Graph} {x y : Nat} (h : y ∈ G.requests x) : Reach G x y :=
  .step h (.refl y)

end Verif.Module
