import Verif.Lemmas.Private
import Verif.Lemmas.PrivateSpec

/-!
C80: private names belong to one evaluation of a class, private elements to the objects they were added
to; ordinary operations neither see nor touch them.
-/
namespace Verif.Priv
open Obj (Val)

/-- C80: whatever classes are evaluated, and whatever is then done with private elements and ordinary
properties of any objects, everything a program gets to see is as in the standard. -/
theorem C80 (ops : List Op) (hf : ∀ op, op ∈ ops → Spec.Functions op) :
    (run init ops).2 = (Spec.run Spec.init ops).2 :=
  (run_rel ops init_rel hf).1

/-- C80: an object has a private element only if it was added to this object, under the identifier, by
code of the same evaluation of the class that declares it. -/
theorem C80_brand (ops : List Op) (hf : ∀ op, op ∈ ops → Spec.Functions op) (e o i : Nat)
    (h : (step (run init ops).1 (.has e o i)).2 = .bool true) :
    ∃ op e' i' n, op ∈ ops ∧ Spec.adds op = some (e', o, i') ∧
      Spec.resolve i ((Spec.run Spec.init ops).1.envs.getD e []) = some n ∧
      Spec.resolve i' ((Spec.run Spec.init ops).1.envs.getD e' []) = some n := by
  obtain ⟨_, R, hR⟩ := run_rel ops init_rel hf
  obtain ⟨R', _, h2⟩ := step_rel hR (.has e o i) trivial
  rw [h] at h2
  unfold Spec.step Spec.withName at h2
  simp only at h2
  split at h2
  · cases h2
  · rename_i n hn
    simp only [Out.bool.injEq] at h2
    have hne : (Spec.run Spec.init ops).1.elems o n ≠ none := by
      intro hc; rw [hc] at h2; cases h2
    obtain ⟨op, e', i', hm, ha, hr⟩ := Spec.run_elems ops Spec.init o n hne rfl
    exact ⟨op, e', i', n, hm, ha, hn, hr⟩

/-- C80: the operations on ordinary properties answer as if the private ones had not happened. -/
theorem C80_separate (ops : List Op) (hf : ∀ op, op ∈ ops → Spec.Functions op) :
    Spec.seen ops (run init ops).2 = (run init (ops.filter Spec.ordinary)).2 := by
  rw [C80 ops hf, C80 _ (fun op h => hf op (List.mem_filter.1 h).1)]
  exact Spec.run_seen ops Spec.init Spec.init rfl

/-! ## Examples -/

/-- Two evaluations of a class with `#1` and an accessor `#2`; the second has no access to the first's. -/
def exOps : List Op :=
  [.newEnv none [1, 2], .newEnv none [1, 2], .newEnv (some 0) [2],
   .addField 0 7 1 (.num 5), .addGetter 0 7 2 (.other 1), .putProp 7 false 3 (.num 1), .addSetter 0 7 2 (.other 2),
   .get 0 7 1, .get 1 7 1, .get 2 7 1, .get 2 7 2, .set 0 7 2 (.num 4), .has 1 7 1, .has 2 7 1, .addField 0 7 1 (.num 6),
   .deleteProp 7 false 1, .ownKeys 7, .set 2 7 1 (.num 9), .get 0 7 1, .get 0 8 1, .get 0 7 3]

example : (run init exOps).2 =
    [.unit, .unit, .unit, .unit, .unit, .unit, .unit,
     .value (.num 5), .typeError, .value (.num 5), .typeError, .call (.other 2), .bool false, .bool true, .typeError,
     .unit, .keys [(false, 3)], .unit, .value (.num 9), .typeError, .fault] := by
  decide +kernel

example : ∀ op, op ∈ exOps → Spec.Functions op := by
  intro op h
  simp only [exOps, List.mem_cons, List.not_mem_nil, or_false] at h
  rcases h with rfl | rfl | rfl | rfl | rfl | rfl | rfl | rfl | rfl | rfl | rfl | rfl | rfl | rfl | rfl | rfl | rfl |
    rfl | rfl | rfl | rfl <;> simp [Spec.Functions]

end Verif.Priv
