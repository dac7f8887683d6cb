/-
Model of the job queue (`/repo/src/lib/rjs_job.c`).

A job is named by its address; addresses are handed out in increasing order, so the
address of a job is also its position in the order of all `rjs_job_enqueue` calls.
The queue is the list of the jobs linked in `rt->job_list` (`Verif.Model.LinkedList`
shows that the intrusive list behaves like a sequence).  Realms, the scan functions and
the data of the jobs are left out.
-/
namespace Verif.Jobs

/-- What the function of a job may do with the queue. -/
inductive Act where
  /-- `rjs_job_enqueue` -/
  | enqueue
  /-- The JS function `solveJobs` (rjs_extension_opt.c:390-397), which calls
  `rjs_solve_jobs` while the job is running. -/
  | solve
deriving DecidableEq

structure St where
  queue : List Nat
  fresh : Nat
  /-- ghost: the jobs whose functions were called, in order -/
  log : List Nat
deriving DecidableEq

inductive Res where
  | ok (s : St)
  /-- access to a freed job -/
  | ub
  /-- out of fuel -/
  | timeout
deriving DecidableEq

/-- `rjs_job_enqueue` (rjs_job.c:49-68). -/
def enqueue (s : St) : St := { s with queue := s.queue ++ [s.fresh], fresh := s.fresh + 1 }

/-- `ln.next` of a job in the list; `none`: the list head. -/
def next (q : List Nat) (a : Nat) : Option Nat := (q.dropWhile (· ≠ a)).tail.head?

mutual
/-- `rjs_solve_jobs` (rjs_job.c:74-94) with `cur` the loop variable `j` (`none`: the list
head, so the end of the inner loop).  `prog log a` is what the function of job `a` does
when the functions called so far are `log`. -/
def solve (prog : List Nat → Nat → List Act) : Nat → Option Nat → St → Res
  | 0, _, _ => .timeout
  | fuel + 1, none, s =>
    match s.queue with
    | [] => .ok s
    | a :: _ => solve prog fuel (some a) s
  | fuel + 1, some a, s =>
    if a ∉ s.queue then .ub
    else
      let nj := next s.queue a
      match acts prog fuel (prog s.log a) { s with log := s.log ++ [a] } with
      | .ok s =>
        if a ∉ s.queue then .ub
        else solve prog fuel nj { s with queue := s.queue.erase a }
      | r => r
/-- The call `j->func(rt, j->data)` (rjs_job.c:85). -/
def acts (prog : List Nat → Nat → List Act) : Nat → List Act → St → Res
  | 0, _, _ => .timeout
  | _ + 1, [], s => .ok s
  | fuel + 1, .enqueue :: l, s => acts prog fuel l (enqueue s)
  | fuel + 1, .solve :: l, s =>
    match solve prog fuel none s with
    | .ok s => acts prog fuel l s
    | r => r
end

end Verif.Jobs
