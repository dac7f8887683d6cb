import Verif.Model.LinkedList
/-
Model of `Atomics.wait` and `Atomics.notify` on one shared data block
(`/repo/src/lib/rjs_atomics_object_inc.c`:1160-1319, `/repo/src/lib/rjs_data_block_opt.c`:28-40
and 210-303), for any number of agents (threads) running at the same time.

Every agent is a small program; a step is one access to the memory shared by the agents, or one
operation of pthreads.  The lists of waiters are those of `Verif.LinkedList` (pointers).  The mutex
and the condition variables follow POSIX: `pthread_cond_wait` releases the mutex and sleeps in one
step, and has the mutex again when it returns; it may return because of a signal, because the time
is over, or for no reason at all (spurious wake-up).  Whether the time is over is decided when the
thread stops sleeping, not when it has the mutex again.

Simplified: the arguments have been checked and converted already; the element is an integer
(Int32Array and BigInt64Array are not distinguished); `malloc` does not fail (the code asserts it);
`db->waiter_lists` is a Lean list, as lists of waiters are only ever added to it; the data block
lives on (agents hold references to it).
-/
namespace Verif.Waiter
open LinkedList

/-- Undefined behaviour. -/
inductive Fault where
  /-- access to memory that is not allocated -/
  | freed
  /-- a condition variable is destroyed while an agent sleeps on it -/
  | destroyed
  /-- the timeout does not fit into `uint64_t` (rjs_data_block_opt.c:269) -/
  | cast
deriving DecidableEq, Repr

/-- Where an agent is.  Timeouts are in milliseconds (`none`: infinity), counts are numbers
(`none`: infinity). -/
inductive Pc where
  | idle
  /-- `Atomics.wait`, at `rjs_array_buffer_lock` (rjs_atomics_object_inc.c:1226) -/
  | waitLock (pos : Nat) (v : Int) (t : Option Nat)
  /-- at 1228-1230, with the mutex -/
  | waitRead (pos : Nat) (v : Int) (t : Option Nat)
  /-- at `rjs_get_waiter_list` (1231), with the mutex -/
  | waitFind (pos : Nat) (t : Option Nat)
  /-- at `rjs_add_waiter` (1233), with the mutex -/
  | waitAdd (pos head : Nat) (t : Option Nat)
  /-- in `pthread_cond_wait` (rjs_data_block_opt.c:267 or 281), asleep -/
  | asleep (pos w : Nat) (t : Option Nat)
  /-- in `pthread_cond_wait`, awake (`late`: because the time is over), waiting for the mutex -/
  | roused (pos w : Nat) (late : Bool)
  /-- at rjs_data_block_opt.c:284, with the mutex -/
  | leaving (pos w : Nat) (late : Bool)
  /-- `Atomics.notify`, at rjs_atomics_object_inc.c:1290 -/
  | noteLock (pos : Nat) (c : Option Nat)
  /-- at `rjs_get_waiter_list` (1292), with the mutex -/
  | noteFind (pos : Nat) (c : Option Nat)
  /-- in the loop (1296-1310), with the mutex -/
  | noteLoop (pos head n : Nat) (c : Option Nat)
deriving DecidableEq, Repr

/-- What has happened, for the statements. -/
inductive Event where
  /-- agent `a` is in the list of `pos` and sleeps -/
  | enter (pos a : Nat)
  /-- `wait` of agent `a` returns "ok" or (`late`) "timed-out" -/
  | leave (pos a : Nat) (late : Bool)
  /-- `wait` of agent `a` returns "not-equal" -/
  | differs (pos a : Nat)
  /-- `notify` of agent `a` has the mutex -/
  | begins (a pos : Nat) (c : Option Nat)
  /-- `notify` of agent `a` wakes agent `b` -/
  | wakes (a pos b : Nat)
  /-- `notify` of agent `a` returns `n` -/
  | returns (a pos n : Nat)
deriving DecidableEq, Repr

structure Sys where
  heap : Heap
  /-- allocated structures, by the address of their list node -/
  live : Nat → Bool
  /-- `db->waiter_lists`: positions and addresses of the heads -/
  lists : List (Nat × Nat)
  /-- the agent that sleeps on the condition variable of a waiter -/
  cond : Nat → Option Nat
  /-- the agent that made a waiter (only for the events) -/
  owner : Nat → Nat
  /-- `db->lock`: the agent that has it -/
  lock : Option Nat
  mem : Nat → Int
  pc : Nat → Pc
  trace : List Event

/-- The result of a step; `stuck`: this step is not possible now. -/
inductive Out where
  | stuck
  | fault (f : Fault)
  | next (s : Sys)

def setPc (s : Sys) (a : Nat) (p : Pc) : Sys :=
  { s with pc := fun b => if b = a then p else s.pc b }

def emit (s : Sys) (e : Event) : Sys := { s with trace := s.trace ++ [e] }

/-- `pthread_mutex_lock`, and the end of `pthread_cond_wait`. -/
def acquire (s : Sys) (a : Nat) (p : Pc) : Out :=
  match s.lock with
  | none => .next (setPc { s with lock := some a } a p)
  | some _ => .stuck

/-- `rjs_get_waiter_list` (rjs_data_block_opt.c:218-241); `m` is the address of new memory. -/
def find (s : Sys) (pos m : Nat) : Option (Sys × Nat) :=
  match s.lists.lookup pos with
  | some h => some (s, h)
  | none =>
    if s.live m then none
    else some ({ s with live := fun x => if x = m then true else s.live x,
                        heap := init s.heap m, lists := s.lists ++ [(pos, m)] }, m)

/-- The timeout is cast to `uint64_t` (rjs_data_block_opt.c:269). -/
def castOk : Option Nat → Bool
  | none => true
  | some t => decide (t < 2 ^ 64)

/-- The state after `rjs_add_waiter` has added the waiter and released the mutex
(rjs_data_block_opt.c:259-282). -/
def added (s : Sys) (a pos head : Nat) (t : Option Nat) (m : Nat) : Sys :=
  emit (setPc { s with live := fun x => if x = m then true else s.live x,
                       heap := append s.heap head m,
                       owner := fun x => if x = m then a else s.owner x,
                       cond := fun x => if x = m then some a else s.cond x,
                       lock := none } a (.asleep pos m t)) (.enter pos a)

/-- `rjs_add_waiter` up to the sleep (rjs_data_block_opt.c:253-282). -/
def add (s : Sys) (a pos head : Nat) (t : Option Nat) (m : Nat) : Out :=
  if s.live m then .stuck
  else if ¬ (s.live head ∧ (s.heap.prev head = head ∨ s.live (s.heap.prev head))) then .fault .freed
  else if ¬ castOk t then .fault .cast
  else .next (added s a pos head t m)

/-- `rjs_list_remove` touches the node and both neighbours. -/
def canRemove (s : Sys) (w : Nat) : Bool :=
  s.live w && s.live (s.heap.prev w) && s.live (s.heap.next w)

/-- The state after the waiter is removed and the mutex released (rjs_data_block_opt.c:284-287,
rjs_atomics_object_inc.c:1238-1245). -/
def left (s : Sys) (a pos w : Nat) (late : Bool) : Sys :=
  emit (setPc { s with heap := remove s.heap w,
                       live := fun x => if x = w then false else s.live x,
                       lock := none } a .idle) (.leave pos a late)

/-- `rjs_add_waiter` after the sleep (rjs_data_block_opt.c:284-287), `waiter_free` (28-40), and the
end of `Atomics.wait`. -/
def leave (s : Sys) (a pos w : Nat) (late : Bool) : Out :=
  if ¬ canRemove s w then .fault .freed
  else if s.cond w ≠ none then .fault .destroyed
  else .next (left s a pos w late)

/-- A sleeping agent is awake (`late`: because the time is over). -/
def Pc.rouse (late : Bool) : Pc → Pc
  | .asleep pos w _ => .roused pos w late
  | p => p

/-- `pthread_cond_signal`. -/
def signal (s : Sys) (w : Nat) : Sys :=
  match s.cond w with
  | none => s
  | some b => setPc { s with cond := fun x => if x = w then none else s.cond x } b
      ((s.pc b).rouse false)

/-- `(c == INFINITY) || (n < c)` (rjs_atomics_object_inc.c:1296). -/
def more (n : Nat) : Option Nat → Bool
  | none => true
  | some c => decide (n < c)

/-- The state after a waiter is taken out of the list and woken
(rjs_atomics_object_inc.c:1302-1309). -/
def taken (s : Sys) (a pos head n : Nat) (c : Option Nat) (w : Nat) : Sys :=
  emit (setPc (signal { s with heap := init (remove s.heap w) w } w) a (.noteLoop pos head (n + 1) c))
    (.wakes a pos (s.owner w))

/-- One turn of the loop (rjs_atomics_object_inc.c:1296-1310), or the end of `Atomics.notify`. -/
def loop (s : Sys) (a pos head n : Nat) (c : Option Nat) : Out :=
  if ¬ s.live head then .fault .freed
  else if more n c ∧ ¬ isEmpty s.heap head then
    if ¬ canRemove s (s.heap.next head) then .fault .freed
    else .next (taken s a pos head n c (s.heap.next head))
  else .next (emit (setPc { s with lock := none } a .idle) (.returns a pos n))

/-- The next step of an agent; `m` is the address of the memory it may allocate. -/
def run (s : Sys) (a m : Nat) : Out :=
  match s.pc a with
  | .idle => .stuck
  | .waitLock pos v t => acquire s a (.waitRead pos v t)
  | .waitRead pos v t =>
    if s.mem pos = v then .next (setPc s a (.waitFind pos t))
    else .next (emit (setPc { s with lock := none } a .idle) (.differs pos a))
  | .waitFind pos t =>
    match find s pos m with
    | none => .stuck
    | some (s, h) => .next (setPc s a (.waitAdd pos h t))
  | .waitAdd pos h t => add s a pos h t m
  | .asleep _ _ _ => .stuck
  | .roused pos w late => acquire s a (.leaving pos w late)
  | .leaving pos w late => leave s a pos w late
  | .noteLock pos c =>
    match acquire s a (.noteFind pos c) with
    | .next s => .next (emit s (.begins a pos c))
    | o => o
  | .noteFind pos c =>
    match find s pos m with
    | none => .stuck
    | some (s, h) => .next (setPc s a (.noteLoop pos h 0 c))
  | .noteLoop pos h n c => loop s a pos h n c

/-- What can happen. -/
inductive Op where
  /-- an agent calls `Atomics.wait` -/
  | wait (a pos : Nat) (v : Int) (t : Option Nat)
  /-- an agent calls `Atomics.notify` -/
  | notify (a pos : Nat) (c : Option Nat)
  /-- some agent writes to the memory, without the mutex (`Atomics.store`, or a plain store) -/
  | store (pos : Nat) (v : Int)
  /-- an agent goes on -/
  | run (a m : Nat)
  /-- the time of a sleeping agent is over -/
  | timer (a : Nat)
  /-- a spurious wake-up -/
  | spurious (a : Nat)
deriving DecidableEq, Repr

/-- A sleeping agent stops sleeping without a signal. -/
def rouse (s : Sys) (a : Nat) (late : Bool) : Out :=
  match s.pc a with
  | .asleep pos w t =>
    if late ∧ t = none then .stuck
    else .next (setPc { s with cond := fun x => if x = w then none else s.cond x } a
      (Pc.rouse late (.asleep pos w t)))
  | _ => .stuck

def step (s : Sys) : Op → Out
  | .wait a pos v t => if s.pc a = .idle then .next (setPc s a (.waitLock pos v t)) else .stuck
  | .notify a pos c => if s.pc a = .idle then .next (setPc s a (.noteLock pos c)) else .stuck
  | .store pos v => .next { s with mem := fun x => if x = pos then v else s.mem x }
  | .run a m => run s a m
  | .timer a => rouse s a true
  | .spurious a => rouse s a false

def exec (s : Sys) : List Op → Out
  | [] => .next s
  | o :: os =>
    match step s o with
    | .next s => exec s os
    | r => r

/-- A new data block (`rjs_data_block_new`); the memory of the heap is arbitrary. -/
def start (h : Heap) (mem : Nat → Int) : Sys where
  heap := h
  live := fun _ => false
  lists := []
  cond := fun _ => none
  owner := fun _ => 0
  lock := none
  mem := mem
  pc := fun _ => .idle
  trace := []

end Verif.Waiter
