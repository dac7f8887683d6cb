import Verif.Lemmas.Jobs
/-
C10: the job queue.
-/
namespace Verif.Jobs
open Spec

/-- `n` jobs are waiting, none has run. -/
def start (n : Nat) : St := ⟨List.range n, n, []⟩

/-- **C10 is violated** by jobs which call `solveJobs`.  One job is waiting; when it runs for
the first time it calls `solveJobs()`.  It is still linked in the queue, so it is run a
second time, removed and freed, and the outer loop then removes and frees it again. -/
theorem C10_violated :
    ∃ prog : List Nat → Nat → List Act, (∀ log a, log ≠ [] → prog log a = []) ∧
      (∃ s, acts prog 10 (prog [] 0) ⟨[0], 1, [0]⟩ = .ok s ∧ s.log = [0, 0]) ∧
      ∀ fuel, 10 ≤ fuel → solve prog fuel none (start 1) = .ub := by
  refine ⟨fun log _ => if log = [] then [.solve] else [], fun log a h => by simp [h],
    ⟨⟨[], 1, [0, 0]⟩, by decide +kernel, rfl⟩, fun fuel h => ?_⟩
  obtain ⟨k, rfl⟩ : ∃ k, fuel = k + 10 := ⟨fuel - 10, by omega⟩
  rfl

/-- **C10**, for jobs which do not call `solveJobs` themselves.  The loop behaves like a
first-in first-out queue: it returns exactly when that queue runs empty, with the same
result, and never touches a freed job.

Missing for the full property: jobs which call `solveJobs` (`C10_violated`). -/
theorem C10_fifo_partial (prog : List Nat → Nat → List Act) (hp : ∀ l a, Act.solve ∉ prog l a)
    (s : St) :
    (∀ fuel, solve prog fuel none s ≠ .ub) ∧
    ∀ s', (∃ fuel, solve prog fuel none s = .ok s') ↔ ∃ k, fifo prog k s = some s' := by
  constructor
  · intro fuel
    rcases solve_fifo hp fuel none s (.inl rfl) with h | ⟨s', h, _⟩ <;> simp [h]
  · intro s'
    constructor
    · rintro ⟨fuel, h⟩
      rcases solve_fifo hp fuel none s (.inl rfl) with h1 | ⟨s1, h1, k, h2⟩
      · rw [h] at h1; simp at h1
      · rw [h] at h1; obtain rfl : s' = s1 := by simpa using h1
        exact ⟨k, h2⟩
    · rintro ⟨k, h⟩
      exact fifo_solve hp k s s' h none (.inl rfl)

/-- **C10**, the consequence: when `rjs_solve_jobs` returns, the queue is empty and the jobs
run are exactly the jobs ever queued, each once, in the order of the `rjs_job_enqueue`
calls. -/
theorem C10_order_partial (prog : List Nat → Nat → List Act) (hp : ∀ l a, Act.solve ∉ prog l a)
    (n fuel : Nat) (s' : St) (h : solve prog fuel none (start n) = .ok s') :
    s'.queue = [] ∧ s'.log = List.range s'.fresh ∧ n ≤ s'.fresh := by
  rcases solve_fifo hp fuel none (start n) (.inl rfl) with h1 | ⟨s1, h1, k, h2⟩
  · rw [h] at h1; simp at h1
  · rw [h] at h1; obtain rfl : s' = s1 := by simpa using h1
    obtain ⟨a, b⟩ := fifo_log k _ _ h2 (by simp [start])
    refine ⟨a, b, ?_⟩
    have : ∀ (k : Nat) (s s' : St), fifo prog k s = some s' → s.fresh ≤ s'.fresh := by
      intro k
      induction k with
      | zero =>
        rintro ⟨q, f, l⟩ s' h
        cases q with
        | nil => simp [fifo] at h; subst h; exact Nat.le_refl _
        | cons => simp [fifo] at h
      | succ k ih =>
        rintro ⟨q, f, l⟩ s' h
        cases q with
        | nil => simp [fifo] at h; subst h; exact Nat.le_refl _
        | cons a q =>
          simp only [fifo] at h
          have := ih _ _ h
          simp only at this ⊢
          omega
    simpa [start] using this k _ _ h2

/-- Two jobs; job 0 queues two more, job 2 queues another one. -/
example : solve (fun _ a => if a = 0 then [.enqueue, .enqueue] else if a = 2 then [.enqueue] else [])
    40 none (start 2) = .ok ⟨[], 5, [0, 1, 2, 3, 4]⟩ := by decide +kernel

end Verif.Jobs
