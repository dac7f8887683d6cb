import Verif.Model.Jobs
/-
A first-in first-out job queue.
-/
namespace Verif.Jobs.Spec

/-- How many jobs a list of actions queues. -/
def count (l : List Act) : Nat := l.count .enqueue

/-- Take the first job, run it, put the jobs it queues behind all others; until the queue is
empty (`none`: not within the given number of jobs). -/
def fifo (prog : List Nat → Nat → List Act) : Nat → St → Option St
  | _, ⟨[], fresh, log⟩ => some ⟨[], fresh, log⟩
  | 0, _ => none
  | n + 1, ⟨a :: q, fresh, log⟩ =>
    let k := count (prog log a)
    fifo prog n ⟨q ++ (List.range' fresh k), fresh + k, log ++ [a]⟩

end Verif.Jobs.Spec
