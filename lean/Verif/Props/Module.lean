import Verif.Lemmas.ModuleOnce
/-
C44: each module body runs at most once, after its dependencies.
C45: evaluation with top level `await` completes.

(The order of the bodies and the completion of the promises are in `Verif.Props.ModuleOrder`.)
-/
namespace Verif.Module

/-! ## Executions on lists of operations, for the examples -/

def execFrom (G : Graph) : List Op → St → M St
  | [], s => .ok s
  | o :: os, s => if o.can G s then step G s o >>= execFrom G os else .error .fuel

/-- The state after some operations. -/
def exec (G : Graph) (os : List Op) : M St := execFrom G os init

theorem execFrom_run {G : Graph} : ∀ {os : List Op} {s s' : St}, Run G s →
    execFrom G os s = .ok s' → Run G s'
  | [], s, s', h, e => by cases e; exact h
  | o :: os, s, s', h, e => by
    simp only [execFrom] at e
    split at e
    · next hc =>
      obtain ⟨s1, h1, e⟩ := bindOk e
      exact execFrom_run (.step h hc h1) e
    · cases e

/-- The state, for an execution without fault. -/
def after (G : Graph) (os : List Op) : St :=
  match exec G os with
  | .ok s => s
  | .error _ => init

theorem after_run {G : Graph} {os : List Op} (h : (exec G os).isOk = true) : Run G (after G os) := by
  unfold after
  split
  · next s e => exact execFrom_run .init e
  · exact .init

theorem execFrom_append {G : Graph} (o : Op) : ∀ (os : List Op) (s : St),
    execFrom G (os ++ [o]) s = execFrom G os s >>= fun s => execFrom G [o] s
  | [], s => rfl
  | a :: os, s => by
    simp only [List.cons_append, execFrom]
    split
    · cases step G s a with
      | error e => rfl
      | ok t => exact execFrom_append o os t
    · rfl

theorem after_step {G : Graph} {os : List Op} {o : Op} (h : (exec G (os ++ [o])).isOk = true) :
    step G (after G os) o = .ok (after G (os ++ [o])) := by
  unfold after exec at *
  rw [execFrom_append] at *
  cases h1 : execFrom G os init with
  | error e => rw [h1] at h; cases h
  | ok s =>
    rw [h1] at h
    simp only [bind, Except.bind, execFrom] at h ⊢
    split at h
    · next hc =>
      rw [if_pos hc]
      cases h2 : step G s o with
      | error e => rw [h2] at h; cases h
      | ok t => rfl
    · cases h

/-- Modules from tables. -/
def graph (requests : List (List Nat)) (tla : List Bool) (body : Nat → Option Nat) : Graph :=
  { size := requests.length, requests := fun m => requests.getD m [],
    tla := fun m => tla.getD m false, body := fun _ m => body m, fuel := 100 }

/-! ## C44 -/

/-- C44, all graphs (with top level `await` too), all sequences of evaluations and completions,
all behaviours of the bodies: the body of a module is started at most once. -/
theorem C44_once (G : Graph) (s : St) (h : Run G s) (m : Nat) :
    s.trace.count (.start m) ≤ 1 := (h.once m).1

/-- Two modules that import each other, and one that imports both, evaluated twice. -/
example : let G := graph [[1], [0], [0, 1]] [] (fun _ => none)
    Run G (after G [.evaluate 2, .evaluate 1, .evaluate 2]) ∧
    (after G [.evaluate 2, .evaluate 1, .evaluate 2]).trace =
      [.start 1, .done 1, .start 0, .done 0, .start 2, .done 2] :=
  ⟨after_run (by decide +kernel), by decide +kernel⟩

/-! ## C45 -/

/-- All bodies with top level `await` have ended, and still some promise of an evaluation is
pending: nothing is left that could settle it. -/
def Hangs (s : St) : Prop :=
  (∀ m, (s.mods m).running = false) ∧ ∃ m, (s.mods m).cap = some .pending

/-- C45 is violated: module 2 imports two modules of the same asynchronous cycle.  It is entered
twice in the list of parents of the cycle root, waits for two completions, and gets one
(rjs_module_opt.c:1262-1271 and 976-978): its promise never settles. -/
theorem C45_violated_hang :
    ∃ (G : Graph) (s : St), Run G s ∧ G.size = 3 ∧ Hangs s ∧ (s.mods 2).cap = some .pending ∧
      .start 2 ∉ s.trace := by
  let G := graph [[1], [0], [0, 1]] [true, true, false] (fun _ => none)
  let ops : List Op := [.evaluate 2, .settle 1 none, .settle 0 none]
  refine ⟨G, after G ops, after_run (by decide +kernel), rfl, ⟨fun m => ?_, 2, by decide +kernel⟩,
    by decide +kernel, by decide +kernel⟩
  match m with
  | 0 => decide +kernel
  | 1 => decide +kernel
  | 2 => decide +kernel
  | n + 3 => rfl

/-- C45 is violated: module 1 imports module 0, which has a top level `await`, and both have been
evaluated; `async_eval` of module 1 is left as it was (rjs_module_opt.c:1049).  Module 2, imported
later, waits for module 1 for ever (rjs_module_opt.c:1262). -/
theorem C45_violated_late :
    ∃ (G : Graph) (s s' : St), Run G s ∧ (s.mods 1).cap = some .fulfilled ∧
      (∀ m, (s.mods m).running = false) ∧
      step G s (.evaluate 2) = .ok s' ∧ Hangs s' ∧ (s'.mods 2).cap = some .pending := by
  let G := graph [[], [0], [1]] [true, false, false] (fun _ => none)
  let ops : List Op := [.evaluate 1, .settle 0 none]
  refine ⟨G, after G ops, after G (ops ++ [.evaluate 2]), after_run (by decide +kernel),
    by decide +kernel, fun m => ?_, after_step (by decide +kernel), ?_, by decide +kernel⟩
  · match m with
    | 0 => decide +kernel
    | 1 => decide +kernel
    | 2 => decide +kernel
    | n + 3 => rfl
  · refine ⟨fun m => ?_, 2, by decide +kernel⟩
    match m with
    | 0 => decide +kernel
    | 1 => decide +kernel
    | 2 => decide +kernel
    | n + 3 => rfl

/-- C45 is violated: the promise of a second evaluation of such a module never settles, though all
bodies have been run: here module 1 was evaluated as a dependency of module 2, which failed, and
is then imported by itself. -/
theorem C45_violated_again :
    ∃ (G : Graph) (s : St), Run G s ∧ .done 1 ∈ s.trace ∧ Hangs s ∧
      (s.mods 1).cap = some .pending := by
  let G := graph [[], [0], [1, 3], []] [true, false, false, false]
    (fun m => if m = 3 then some 7 else none)
  let ops : List Op := [.evaluate 2, .settle 0 none, .evaluate 1]
  refine ⟨G, after G ops, after_run (by decide +kernel), by decide +kernel, ⟨fun m => ?_, 1, by
    decide +kernel⟩, by decide +kernel⟩
  match m with
  | 0 => decide +kernel
  | 1 => decide +kernel
  | 2 => decide +kernel
  | 3 => decide +kernel
  | n + 4 => rfl

/-- C45 is violated: an assertion of `gather_available_ancestors` fails.  Module 2 (with top level
`await`) imports module 1, which imports module 0 (with top level `await`).  When module 0 has
ended, module 2 is gathered through module 1; then, module 1 having been run, it is gathered
again (rjs_module_opt.c:1062-1065), with no completion to wait for. -/
theorem C45_violated_assert :
    ∃ (G : Graph) (s : St) (o : Op), Run G s ∧ o.can G s ∧
      step G s o = .error (.assertion 986) := by
  let G := graph [[], [0], [1]] [true, false, true] (fun _ => none)
  refine ⟨G, after G [.evaluate 2], .settle 0 none, after_run (by decide +kernel),
    by decide +kernel, rfl⟩

/-- C45 is violated: for the same reason a body runs too early, and the promise of its evaluation
is fulfilled too early.  Module 3 imports module 1, which imports module 0 (with top level
`await`), and module 2 (with top level `await`): it is run when module 0 has ended, though module
2 has not. -/
theorem C45_violated_order :
    ∃ (G : Graph) (s : St), Run G s ∧ 2 ∈ G.requests 3 ∧ ¬ G.requests 2 ≠ [] ∧
      .start 3 ∈ s.trace ∧ .done 2 ∉ s.trace ∧ (s.mods 2).running = true ∧
      (s.mods 3).cap = some .fulfilled := by
  let G := graph [[], [0], [], [1, 2]] [true, false, true, false] (fun _ => none)
  exact ⟨G, after G [.evaluate 3, .settle 0 none], after_run (by decide +kernel),
    by decide +kernel, by decide +kernel, by decide +kernel, by decide +kernel, by decide +kernel,
    by decide +kernel⟩

/-- C45 is violated: `throw undefined` in a module that waited for another one makes an assertion
fail (rjs_module_opt.c:1038). -/
theorem C45_violated_undefined :
    ∃ (G : Graph) (s : St) (o : Op), Run G s ∧ o.can G s ∧
      step G s o = .error (.assertion 1038) := by
  let G := graph [[], [0], [1]] [true, false, false] (fun m => if m = 1 then some undef else none)
  refine ⟨G, after G [.evaluate 2], .settle 0 none, after_run (by decide +kernel),
    by decide +kernel, rfl⟩

end Verif.Module
