import Verif.Model.ModLoad

/-!
# Loading as the standard has it

16.2.1.5.1 (LoadRequestedModules): the promise is fulfilled if everything that is asked for, directly or
through other modules, was found and loaded, and rejected otherwise; then linking finds a module for each
request (16.2.1.5.2, GetImportedModule).
-/

namespace Verif.ModLoad.Spec

open Verif.ModLoad

/-- Asked for by `root`, or by one asked for. -/
inductive Asked (H : Host) (root : Nat) : Nat → Prop where
  | root : Asked H root root
  | next {m t : Nat} : Asked H root m → some t ∈ H.reqs m → Asked H root t

/-- Everything asked for is found and loaded. -/
def Complete (H : Host) (root : Nat) : Prop :=
  ∀ m, Asked H root m → H.loadable m = true ∧ none ∉ H.reqs m

/-- The module can be linked: it waits for that, and each of its requests has the module asked for. -/
def Ready (H : Host) (s : S) (m : Nat) : Prop :=
  s.st m = .unlinked ∧ H.reqs m = (s.filled m).map some

/-- What earlier imports leave: a module that waits for linking, or was linked, has the modules it asks for,
all of them such modules; nothing was done for the others. -/
structure Sound (H : Host) (s : S) : Prop where
  linked : ∀ m, s.st m = .unlinked →
    H.loadable m = true ∧ H.reqs m = (s.filled m).map some ∧ ∀ t ∈ s.filled m, s.st t = .unlinked
  fresh : ∀ m, s.st m ≠ .unlinked → s.filled m = []
  loaded : ∀ m, s.st m = .loaded → H.loadable m = true
  failed : ∀ m, s.st m = .failed → H.loadable m = false
  ended : ∀ m, s.st m ≠ .requested

end Verif.ModLoad.Spec
