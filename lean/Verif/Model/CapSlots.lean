/-!
# The executor of `NewPromiseCapability` and the value stack

`rjs_new_promise_capability` (rjs_promise.c:561-604), `promise_capalibity_new_nf` (rjs_promise.c:536-552),
`rjs_promise_capability_init` (include/ratjs/rjs_promise.h:49-57), `rjs_value_stack_push_n`,
`rjs_value_stack_save`, `rjs_value_stack_restore` (the addresses are
numbers of slots, include/ratjs/rjs_value.h:103-117).
The capability is three slots of the value stack of the function that asked for it; the executor, an object
which the constructor may keep, holds their addresses.

Simplifications: one value stack (a generator has its own, so that a late call may meet another stack); a
frame is given its slots at once; the capability's frame has no other slots, and the function that owns it
writes only the promise (rjs_promise.c:599).
-/

namespace Verif.CapSlots

/-- Values; 0 is undefined. -/
abbrev Val := Nat

/-- A running function: where its slots begin, and the number of the capability they hold. -/
structure Frame where
  base : Nat
  cap : Option Nat
  deriving DecidableEq

/-- The value stack (bottom first), the running functions (innermost first), and for each executor made so
far the address of the first of the three slots it knows. -/
structure St where
  slots : List Val
  frames : List Frame
  execs : List Nat
  deriving DecidableEq

/-- What a program does. -/
inductive Op where
  /-- a native function is called and pushes `n` slots -/
  | enter (n : Nat)
  /-- the innermost function returns (`rjs_value_stack_restore`) -/
  | leave
  /-- the innermost function writes, reads one of its slots -/
  | write (i : Nat) (v : Val)
  | read (i : Nat)
  /-- a function makes a capability and is about to call the constructor -/
  | newCap
  /-- executor `k` is called -/
  | exec (k : Nat) (resolve reject : Val)
  deriving DecidableEq

/-- What is seen of it; `outside`: a slot above the top of the stack is asked for, which the assertion of
`rjs_value_get_pointer` forbids (include/ratjs/rjs_value.h:111); `bad`: cannot happen. -/
inductive Obs where
  | none | val (v : Val) | ok | typeError | outside | bad
  deriving DecidableEq

/-- Nothing is running. -/
def init : St := ⟨[], [], []⟩

/-- `promise_capalibity_new_nf` (rjs_promise.c:536-552) with the slots at `p`. -/
def execAt (s : St) (p : Nat) (a b : Val) : St × Obs :=
  match s.slots[p + 1]?, s.slots[p + 2]? with
  | some x, some y =>
    if x = 0 ∧ y = 0 then ({ s with slots := (s.slots.set (p + 1) a).set (p + 2) b }, .ok)
    else (s, .typeError)
  | _, _ => (s, .outside)

/-- One operation. -/
def step (s : St) : Op → St × Obs
  | .enter n => (⟨s.slots ++ List.replicate n 0, ⟨s.slots.length, none⟩ :: s.frames, s.execs⟩, .none)
  | .leave =>
    match s.frames with
    | [] => (s, .bad)
    | f :: fs => (⟨s.slots.take f.base, fs, s.execs⟩, .none)
  | .write i v =>
    match s.frames with
    | [] => (s, .bad)
    | f :: _ =>
      if f.base + i < s.slots.length ∧ (f.cap = none ∨ i = 0) then
        ({ s with slots := s.slots.set (f.base + i) v }, .none)
      else (s, .bad)
  | .read i =>
    match s.frames with
    | [] => (s, .bad)
    | f :: _ =>
      match s.slots[f.base + i]? with
      | some v => (s, .val v)
      | none => (s, .bad)
  | .newCap =>
    (⟨s.slots ++ [0, 0, 0], ⟨s.slots.length, some s.execs.length⟩ :: s.frames, s.execs ++ [s.slots.length]⟩,
      .none)
  | .exec k a b =>
    match s.execs[k]? with
    | none => (s, .bad)
    | some p => execAt s p a b

/-- A program. -/
def run (s : St) : List Op → List Obs
  | [] => []
  | o :: os => (step s o).2 :: run (step s o).1 os

end Verif.CapSlots
