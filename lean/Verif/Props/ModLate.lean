import Verif.Lemmas.ModLate
import Verif.Spec.ModLoad

/-! # C99 with a host that answers later -/

namespace Verif.ModLate

open Verif.ModLoad (Host upd)
open Verif.ModLoad.Spec

/-- Whatever the modules ask for and in whatever order the host answers, for each module asked for with whatever
answer: the promise of the load is settled exactly once, when no answer is to come any more, and not before.

Partial: with which result is another matter (`C99_late_status_violated`, `C99_late_missing_violated`,
`C99_late_refused_violated`). -/
theorem C99_late_once_partial (H : Host) (n root : Nat) (l : List (Nat × Answer)) (s0 s : S)
    (h0 : start H n root = some s0) (h : answers H n l s0 = some s) :
    (s.pending = [] → s.settled.length = 1) ∧ (s.pending ≠ [] → s.settled = []) := by
  have gen : ∀ (l : List (Nat × Answer)) (s0 : S), Settled s0 → answers H n l s0 = some s → Settled s := by
    intro l
    induction l with
    | nil => intro s0 hs he; simp only [answers, Option.some.injEq] at he; exact he ▸ hs
    | cons p l ih =>
      intro s0 hs he
      obtain ⟨t, a⟩ := p
      unfold answers at he
      split at he
      · cases he
      · rename_i s1 h1
        exact ih s1 (settled_answer hs h1) he
  exact (gen l s0 (settled_start h0) h).2

/-- Module 0 asks for 1 and 2; module 1 asks for `r`. -/
def two (r : List (Option Nat)) : Host :=
  { reqs := fun m => match m with
      | 0 => [some 1, some 2]
      | 1 => r
      | _ => []
    loadable := fun _ => true
    errs := fun _ => false }

example : ((start (two []) 3 0).bind (answers (two []) 3 [(2, .ok)])).map (fun s => (s.pending, s.settled)) =
    some ([1], []) := by decide
example : ((start (two [some 3]) 3 0).bind (answers (two [some 3]) 3 [(2, .ok), (1, .ok), (3, .failed)])).map
    (fun s => (s.pending, s.settled.length)) = some ([], 1) := by decide

/-- Everything is loaded and the promise resolved, but module 1 keeps the status "requested"
(`module_load_ok` does not put it on the list): linking meets the assertion at 746. -/
theorem C99_late_status_violated : ∃ (H : Host) (s0 s : S), start H 3 0 = some s0 ∧
    answers H 3 [(1, .ok), (2, .ok)] s0 = some s ∧ s.settled = [true] ∧ Asked H 0 1 ∧ s.st 1 = .requested := by
  refine ⟨two [], _, _, rfl, rfl, by decide, .next .root (by decide), by decide⟩

/-- A name that module 1 asks for is not found, yet the promise is resolved. -/
theorem C99_late_missing_violated : ∃ (H : Host) (s0 s : S), start H 3 0 = some s0 ∧
    answers H 3 [(1, .ok), (2, .ok)] s0 = some s ∧ s.settled = [true] ∧ ¬ Complete H 0 := by
  refine ⟨two [none], _, _, rfl, rfl, by decide, fun h => ?_⟩
  exact (h 1 (.next .root (by decide))).2 (by decide)

/-- The host rejects the promise of module 1 without a call of `rjs_load_module`, yet the promise of the load is
resolved. -/
theorem C99_late_refused_violated : ∃ (H : Host) (s0 s : S), start H 3 0 = some s0 ∧
    answers H 3 [(1, .refused), (2, .ok)] s0 = some s ∧ s.settled = [true] ∧ Asked H 0 1 ∧
    s.st 1 = .allocated := by
  refine ⟨two [], _, _, rfl, rfl, by decide, .next .root (by decide), by decide⟩

end Verif.ModLate
