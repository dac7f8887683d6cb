import Verif.Spec.Jobs
import Mathlib.Data.List.Nodup
/-
Helper lemmas for the job queue.
-/
namespace Verif.Jobs
open Spec

variable {prog : List Nat → Nat → List Act}

/-- The state after a job function which queues `k` jobs. -/
def after (s : St) (k : Nat) : St := ⟨s.queue ++ List.range' s.fresh k, s.fresh + k, s.log⟩

theorem after_enqueue (s : St) (k : Nat) : after (enqueue s) k = after s (k + 1) := by
  simp only [after, enqueue, List.range'_succ, List.append_assoc, List.singleton_append,
    St.mk.injEq, true_and, and_true]
  omega

theorem acts_none : ∀ (l : List Act) (fuel : Nat) (s : St), Act.solve ∉ l →
    acts prog fuel l s = if l.length < fuel then .ok (after s (count l)) else .timeout
  | [], 0, s, _ => by simp [acts]
  | [], _ + 1, s, _ => by simp [acts, count, after]
  | _ :: _, 0, s, _ => by simp [acts]
  | .solve :: l, _ + 1, s, h => by simp at h
  | .enqueue :: l, fuel + 1, s, h => by
    have h' : Act.solve ∉ l := fun hc => h (List.mem_cons_of_mem _ hc)
    have ih := acts_none l fuel (enqueue s) h'
    rw [acts, ih, after_enqueue]
    simp [count]

theorem next_cons (a : Nat) (q : List Nat) : next (a :: q) a = q.head? := by
  simp [next]

/-- One round of the inner loop on the first job. -/
theorem solve_cons (hp : ∀ l a, Act.solve ∉ prog l a) (fuel a : Nat) (q : List Nat)
    (fresh : Nat) (log : List Nat) :
    solve prog (fuel + 1) (some a) ⟨a :: q, fresh, log⟩ =
      if (prog log a).length < fuel then
        solve prog fuel q.head? ⟨q ++ List.range' fresh (count (prog log a)),
          fresh + count (prog log a), log ++ [a]⟩
      else .timeout := by
  rw [solve, if_neg (by simp)]
  simp only [acts_none _ _ _ (hp log a), next_cons]
  by_cases h : (prog log a).length < fuel
  · simp [h, after]
  · simp [h]

/-- More fuel does not change a result. -/
theorem solve_mono (hp : ∀ l a, Act.solve ∉ prog l a) : ∀ (n : Nat) (cur : Option Nat) (s s' : St),
    (cur = none ∨ cur = s.queue.head?) → solve prog n cur s = .ok s' →
    ∀ m, n ≤ m → solve prog m cur s = .ok s'
  | 0, _, _, _, _, h, _, _ => by simp [solve] at h
  | n + 1, cur, ⟨queue, fresh, log⟩, s', hc, h, 0, hm => by omega
  | n + 1, cur, ⟨queue, fresh, log⟩, s', hc, h, m + 1, hm => by
    cases cur with
    | none =>
      cases queue with
      | nil => simpa [solve] using h
      | cons a q =>
        simp only [solve] at h ⊢
        exact solve_mono hp n (some a) ⟨a :: q, fresh, log⟩ _ (.inr rfl) h m (by omega)
    | some a =>
      cases queue with
      | nil => simp at hc
      | cons b q =>
        obtain rfl : a = b := by simpa using hc
        rw [solve_cons hp] at h ⊢
        by_cases hlt : (prog log a).length < n
        · rw [if_pos hlt] at h
          rw [if_pos (by omega)]
          refine solve_mono hp n _ _ _ ?_ h m (by omega)
          cases q <;> simp
        · rw [if_neg hlt] at h; simp at h

/-- The model agrees with the queue, whenever it returns; it never touches a freed job. -/
theorem solve_fifo (hp : ∀ l a, Act.solve ∉ prog l a) : ∀ (n : Nat) (cur : Option Nat) (s : St),
    (cur = none ∨ cur = s.queue.head?) →
    solve prog n cur s = .timeout ∨ ∃ s', solve prog n cur s = .ok s' ∧ ∃ k, fifo prog k s = some s'
  | 0, _, _, _ => .inl (by simp [solve])
  | n + 1, cur, ⟨queue, fresh, log⟩, hc => by
    cases cur with
    | none =>
      cases queue with
      | nil => exact .inr ⟨_, rfl, 0, rfl⟩
      | cons a q =>
        simp only [solve]
        exact solve_fifo hp n _ _ (.inr rfl)
    | some a =>
      cases queue with
      | nil => simp at hc
      | cons b q =>
        obtain rfl : a = b := by simpa using hc
        rw [solve_cons hp]
        by_cases hlt : (prog log a).length < n
        · rw [if_pos hlt]
          rcases solve_fifo hp n q.head? ⟨q ++ List.range' fresh (count (prog log a)),
            fresh + count (prog log a), log ++ [a]⟩ (by cases q <;> simp) with h | ⟨s', h1, k, h2⟩
          · exact .inl h
          · exact .inr ⟨s', h1, k + 1, h2⟩
        · rw [if_neg hlt]; exact .inl rfl

/-- Whenever the queue runs empty, so does the model. -/
theorem fifo_solve (hp : ∀ l a, Act.solve ∉ prog l a) : ∀ (k : Nat) (s s' : St),
    fifo prog k s = some s' → ∀ cur, (cur = none ∨ cur = s.queue.head?) →
    ∃ n, solve prog n cur s = .ok s'
  | k, ⟨[], fresh, log⟩, s', h, cur, hc => by
    have hs : s' = ⟨[], fresh, log⟩ := by
      cases k <;> simpa [fifo] using h.symm
    have hcur : cur = none := by simpa using hc
    subst hs hcur
    exact ⟨1, rfl⟩
  | 0, ⟨a :: q, fresh, log⟩, s', h, _, _ => by simp [fifo] at h
  | k + 1, ⟨a :: q, fresh, log⟩, s', h, cur, hc => by
    simp only [fifo] at h
    obtain ⟨n, hn⟩ := fifo_solve hp k _ _ h q.head? (by cases q <;> simp)
    have h1 : solve prog (n + (prog log a).length + 1 + 1) (some a) ⟨a :: q, fresh, log⟩ = .ok s' := by
      rw [solve_cons hp, if_pos (by omega)]
      exact solve_mono hp n _ _ _ (by cases q <;> simp) hn _ (by omega)
    rcases hc with rfl | rfl
    · exact ⟨n + (prog log a).length + 1 + 1 + 1, by rw [solve]; exact h1⟩
    · exact ⟨_, h1⟩

/-- Jobs in a queue whose addresses are consecutive are run in that order, once. -/
theorem fifo_log : ∀ (k : Nat) (s s' : St), fifo prog k s = some s' →
    s.log ++ s.queue = List.range s.fresh → s'.queue = [] ∧ s'.log = List.range s'.fresh
  | k, ⟨[], fresh, log⟩, s', h, hl => by
    have hs : s' = ⟨[], fresh, log⟩ := by
      cases k <;> simpa [fifo] using h.symm
    subst hs
    exact ⟨rfl, by simpa using hl⟩
  | 0, ⟨a :: q, fresh, log⟩, s', h, _ => by simp [fifo] at h
  | k + 1, ⟨a :: q, fresh, log⟩, s', h, hl => by
    simp only [fifo] at h
    refine fifo_log k _ _ h ?_
    simp only at hl ⊢
    rw [List.append_assoc, List.singleton_append, ← List.cons_append, ← List.append_assoc, hl,
      List.range_eq_range', List.range_eq_range']
    have := List.range'_append (s := 0) (m := fresh) (n := count (prog log a)) (step := 1)
    simpa using this

end Verif.Jobs
