import Verif.Lemmas.CapSlots

/-!
# C98: the executor of a promise capability
-/

namespace Verif.CapSlots

open Spec

/-- C98, part: as long as every executor is called only while the function that made its capability is
running, whatever else is called in between and in whatever nesting, it behaves as the standard's: it sets
its own capability once, throws a TypeError from then on, and no function finds another value in its
variables than the one it wrote.  Missing: executors that are kept by the constructor, see
`C98_foreign_slot_violated`, `C98_other_record_violated` and `C98_outside_violated`. -/
theorem C98_partial (os : List Op) (h : Timely start os) : run init os = runs start os :=
  rel_run os rel_init h

/-- A nested capability, its executor called twice, then the outer one's, by an inner function. -/
def nested : List Op :=
  [.enter 2, .write 1 9, .newCap, .newCap, .exec 1 5 6, .exec 1 7 8, .read 1, .leave, .enter 3, .exec 0 3 4,
    .read 0, .leave, .read 1, .read 2, .exec 0 1 1, .leave, .read 1, .read 0]

example : Timely start nested := by simp [Timely, nested, does, start, vars]
example : run init nested =
    [.none, .none, .none, .none, .ok, .typeError, .val 5, .none, .none, .ok, .val 0, .none, .val 3, .val 4,
      .typeError, .none, .val 9, .val 0] := by decide

/-- C98 fails: an executor that was kept writes into a variable of whatever function is running:
`class C { constructor(f) { saved = f; f(() => {}, () => {}) } } Promise.resolve.call(C, 1)`, and
`saved(x, y)` while a native function has two undefined slots at the place of the old capability. -/
theorem C98_foreign_slot_violated :
    run init [.newCap, .exec 0 5 6, .leave, .enter 3, .exec 0 7 8, .read 1] =
      [.none, .ok, .none, .none, .ok, .val 7] ∧
    runs start [.newCap, .exec 0 5 6, .leave, .enter 3, .exec 0 7 8, .read 1] =
      [.none, .ok, .none, .none, .typeError, .val 0] := by decide

/-- C98 fails: such a call decides by the variables of that function whether to throw: it throws though its
capability was never set (the constructor did not call it). -/
theorem C98_other_record_violated :
    run init [.newCap, .leave, .enter 3, .write 2 9, .exec 0 7 8] = [.none, .none, .none, .none, .typeError] ∧
    runs start [.newCap, .leave, .enter 3, .write 2 9, .exec 0 7 8] = [.none, .none, .none, .none, .ok] := by
  decide

/-- C98 fails: if nothing is running there, the slots are above the top of the stack, and an
assertion fails. -/
theorem C98_outside_violated :
    run init [.newCap, .exec 0 5 6, .leave, .exec 0 7 8] = [.none, .ok, .none, .outside] ∧
    runs start [.newCap, .exec 0 5 6, .leave, .exec 0 7 8] = [.none, .ok, .none, .typeError] := by decide

end Verif.CapSlots
