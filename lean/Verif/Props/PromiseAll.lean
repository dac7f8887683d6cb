import Verif.Lemmas.PromiseAll
/-
C13, C14, C58: `Promise.all`, `Promise.allSettled`, `Promise.any`.
-/
namespace Verif.PromiseAll
open Spec

/-- **C13.**  `Promise.all`: for every interleaving of the loop with calls of the element
functions, the capability's resolve function has been called exactly when the iteration is
finished and every element has been fulfilled, once, with the array of the first values
given by the elements, in the order of the iteration; the counter never wraps round. -/
theorem C13_all (es : List Event) :
    (run .all init es).out = delivered (Spec.run .all Spec.init es) ∧
      (run .all init es).wrapped = false := by
  have := run_sim es _ _ _ (sim_init .all) (by simp)
  exact ⟨this.out, this.wrapped⟩

/-- Two elements which call back in the opposite order, one of them twice. -/
example : (run .all init [.push, .elem, .push, .elem, .call 1 true 5, .finish, .call 1 true 6,
    .call 0 true 7, .call 0 true 8]).out = [[.plain 7, .plain 5]] := by decide

/-- A callback which is called at once, during the iteration. -/
example : (run .all init [.push, .elem, .call 0 true 5, .push, .elem, .call 1 true 6, .finish]).out =
    [[.plain 5, .plain 6]] := by decide

/-- The empty iteration. -/
example : (run .all init [.finish]).out = [[]] := by decide

/-- **C14 is violated**: an element of `Promise.allSettled` whose `then` calls both callbacks is
counted twice (each callback has its own `called` flag), so that the result is delivered
while another element is not settled. -/
theorem C14_violated :
    ∃ es, (run .allSettled init es).out ≠ delivered (Spec.run .allSettled Spec.init es) ∧
      (run .allSettled init es).out = [[.rejected 2, .undef]] ∧
      ∀ b x, Event.call 1 b x ∉ es :=
  ⟨[.push, .elem, .push, .elem, .finish, .call 0 true 1, .call 0 false 2], by decide, by decide,
    fun b x => by cases b <;> simp⟩

/-- **C14 is violated** too in that the counter wraps round. -/
theorem C14_violated_counter : ∃ es, (run .allSettled init es).wrapped = true :=
  ⟨[.push, .elem, .finish, .call 0 true 1, .call 0 false 2], by decide⟩

/-- **C14, the part which holds.**  If no element calls both of its callbacks (which promises
never do, see C12), the result of `Promise.allSettled` is delivered exactly when the
iteration is finished and every element is settled, once, with the outcomes in order.

Full statement, which the code does not meet: the same without `NoBoth`, where the first
call of either callback counts. -/
theorem C14_partial (es : List Event) (h : NoBoth es) :
    (run .allSettled init es).out = delivered (Spec.run .allSettled Spec.init es) ∧
      (run .allSettled init es).wrapped = false := by
  have := run_sim es _ _ _ (sim_init .allSettled) (fun _ => by simpa using h)
  exact ⟨this.out, this.wrapped⟩

example : NoBoth [.push, .elem, .push, .elem, .call 1 false 5, .finish, .call 0 true 7, .call 1 false 6] ∧
    (run .allSettled init [.push, .elem, .push, .elem, .call 1 false 5, .finish, .call 0 true 7,
      .call 1 false 6]).out = [[.fulfilled 7, .rejected 5]] :=
  ⟨fun i x y => by simp; omega, by decide⟩

/-- **C58.**  `Promise.any`: the promise is rejected with an AggregateError exactly when the
iteration is finished and every element has been rejected, once, with the first reasons
given by the elements, in the order of the iteration. -/
theorem C58_any (es : List Event) :
    (run .any init es).out = delivered (Spec.run .any Spec.init es) ∧
      (run .any init es).wrapped = false := by
  have := run_sim es _ _ _ (sim_init .any) (by simp)
  exact ⟨this.out, this.wrapped⟩

example : (run .any init [.push, .elem, .push, .elem, .call 1 false 5, .finish, .call 0 true 6,
    .call 0 false 7, .call 0 false 8]).out = [[.plain 7, .plain 5]] := by decide

end Verif.PromiseAll
