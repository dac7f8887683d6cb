/-
Model of the garbage collector (`/repo/src/lib/rjs_gc.c`, `/repo/include/ratjs/rjs_gc.h`)
and of the weak references (`/repo/src/lib/rjs_weak_ref_opt.c`,
`/repo/src/lib/rjs_hash_object_inc.c`, `/repo/src/lib/rjs_weak_map_object_inc.c`).

A thing is named by a number which is never used twice (the C code names it by its
address; the address of a freed thing may be used again, which the model does not do).
`none` stands for an access to a freed thing (undefined behaviour), or for a loop which
used up its fuel; the theorems show that neither happens.

What the `scan` function of a thing does is modelled by the list `refs` of the things it
marks, in that order (every `*_op_gc_scan` is a sequence of `rjs_gc_mark` calls on the
things the C structure points to).  The memory accounting (`mem_size`) which decides when
`rjs_gc_add` starts a collection is not modelled: every `rjs_gc_add` may start one or not.
-/
namespace Verif.GC

/-- The contents of a thing.  `refs`: the things its `scan` function marks.
`ents`: the entries (key, value) of a WeakMap (rjs_hash_object_inc.c:36-58), whose scan
function `weak_hash_op_gc_scan` (lines 132-140) does not visit them.  A WeakSet entry
is `(key, key)`; a WeakRef object with target `t` has the one entry `(t, t)`
(rjs_weak_ref_object_inc.c:28-32, scan function 36-41). -/
structure Body where
  refs : List Nat
  ents : List (Nat × Nat)
deriving DecidableEq

/-- The heap part of the runtime.  `list`: the things linked from `rt->gc_thing_list`,
first to last.  `marked`, `scanned`: the two flag bits kept in `next_flags`
(rjs_gc.h:45-47).  `roots`: the things `gc_scan_root` (rjs_gc.c:53-101) marks, in order.
`weak`: `rt->weak_ref_list` as pairs (base, ref).  `freed`: ghost log of the things
passed to `ops->free`, the latest last.  `fresh`: ghost supply of unused names. -/
structure Heap where
  list : List Nat
  body : Nat → Body
  marked : Nat → Bool
  scanned : Nat → Bool
  roots : List Nat
  weak : List (Nat × Nat)
  freed : List Nat
  fresh : Nat

/-- The mark stack: `rt->rb.gc_mark_stack` (top first) and `rt->rb.gc_mark_stack_full`,
together with the flag bits of the things. -/
structure MS where
  stack : List Nat
  full : Bool
  marked : Nat → Bool
  scanned : Nat → Bool

def setBit (f : Nat → Bool) (t : Nat) : Nat → Bool := fun x => if x = t then true else f x

/-- `rjs_gc_mark` (rjs_gc.h:55-70); `cap` is `gc_mark_stack.item_cap`. -/
def mark (live : List Nat) (cap : Nat) (s : MS) (t : Nat) : Option MS :=
  if t ∉ live then none
  else if s.marked t then some s
  else
    let s := { s with marked := setBit s.marked t }
    if s.stack.length < cap then some { s with stack := t :: s.stack }
    else some { s with full := true }

def markAll (live : List Nat) (cap : Nat) : List Nat → MS → Option MS
  | [], s => some s
  | t :: ts, s =>
    match mark live cap s t with
    | none => none
    | some s => markAll live cap ts s

/-- `gc_scan` (rjs_gc.c:42-49). -/
def scan (h : Heap) (cap : Nat) (s : MS) (t : Nat) : Option MS :=
  if t ∉ h.list then none
  else markAll h.list cap (h.body t).refs { s with scanned := setBit s.scanned t }

/-- The inner loop of `gc_scan_things` (rjs_gc.c:109-116). -/
def drain (h : Heap) (cap : Nat) : Nat → MS → Option MS
  | fuel, s =>
    match s.stack with
    | [] => some s
    | t :: ts =>
      match fuel with
      | 0 => none
      | fuel + 1 =>
        match scan h cap { s with stack := ts } t with
        | none => none
        | some s => drain h cap fuel s

/-- The loop over the thing list (rjs_gc.c:132-136). -/
def rescan (h : Heap) (cap : Nat) : List Nat → MS → Option MS
  | [], s => some s
  | t :: ts, s =>
    if s.marked t && !s.scanned t then
      match scan h cap s t with
      | none => none
      | some s => rescan h cap ts s
    else rescan h cap ts s

/-- `gc_scan_things` (rjs_gc.c:104-138).  The growth of the mark stack (lines 121-128)
is left out: it depends on `gc_scan_count`, which `gc_run` sets to 0 and nothing ever
changes.  The theorems hold for every capacity. -/
def scanThings (h : Heap) (cap fuel : Nat) : Nat → MS → Option MS
  | 0, _ => none
  | n + 1, s =>
    match drain h cap fuel s with
    | none => none
    | some s =>
      if s.full then
        match rescan h cap h.list { s with full := false } with
        | none => none
        | some s => scanThings h cap fuel n s
      else some s

def setBody (b : Nat → Body) (t : Nat) (x : Body) : Nat → Body := fun y => if y = t then x else b y

/-- `weak_map_on_final`/`weak_set_on_final` (rjs_weak_map_object_inc.c:136-144) through
`hash_delete` (rjs_hash_object_inc.c:359-386), and `weak_ref_on_final`
(rjs_weak_ref_object_inc.c:64-72).  `none`: there is no such entry (the C code would
free a null entry). -/
def onFinal (body : Nat → Body) (base ref : Nat) : Option (Nat → Body) :=
  if ref ∈ (body base).ents.map Prod.fst then
    some (setBody body base ⟨(body base).refs, (body base).ents.filter fun e => e.1 ≠ ref⟩)
  else none

/-- `rjs_solve_weak_refs` (rjs_weak_ref_opt.c:74-96). -/
def solveWeak (live : List Nat) (marked : Nat → Bool) :
    List (Nat × Nat) → (Nat → Body) → Option (List (Nat × Nat) × (Nat → Body))
  | [], b => some ([], b)
  | (base, ref) :: ws, b =>
    if base ∉ live ∨ ref ∉ live then none
    else if !marked base then solveWeak live marked ws b
    else if !marked ref then
      match onFinal b base ref with
      | none => none
      | some b => solveWeak live marked ws b
    else
      match solveWeak live marked ws b with
      | none => none
      | some (ws, b) => some ((base, ref) :: ws, b)

/-- `gc_sweep` (rjs_gc.c:141-158): the new list and the freed things, in order. -/
def sweep (marked : Nat → Bool) : List Nat → List Nat × List Nat
  | [] => ([], [])
  | t :: ts =>
    let r := sweep marked ts
    if marked t then (t :: r.1, r.2) else (r.1, t :: r.2)

/-- The flag bits after `gc_sweep`: `next_flags &= ~3` for the marked things. -/
def clearBits (live : List Nat) (marked f : Nat → Bool) : Nat → Bool :=
  fun x => if x ∈ live ∧ marked x then false else f x

/-- `gc_run` (rjs_gc.c:161-202).  `rjs_solve_finalization_registry` is modelled in
`Verif.Model.Finalization`; `rjs_solve_generator_contexts` only releases native
resources of dead generators and is left out. -/
def gcRun (cap fuel : Nat) (h : Heap) : Option Heap :=
  match markAll h.list cap h.roots ⟨[], false, h.marked, h.scanned⟩ with
  | none => none
  | some s =>
    match scanThings h cap fuel fuel s with
    | none => none
    | some s =>
      match solveWeak h.list s.marked h.weak h.body with
      | none => none
      | some (weak, body) =>
        let r := sweep s.marked h.list
        some { h with
          list := r.1, body := body, weak := weak, freed := h.freed ++ r.2,
          marked := clearBits h.list s.marked s.marked,
          scanned := clearBits h.list s.marked s.scanned }

/-- What the rest of the engine does with the heap. -/
inductive Op where
  /-- Allocate a thing holding `refs`; its address is stored in the field `holder`
  (`none`: a root) before `rjs_gc_add` runs, as all callers do; `gc`: whether
  `rjs_gc_add` decides to collect. -/
  | alloc (refs : List Nat) (holder : Option Nat) (gc : Bool)
  /-- Change the strong references of a thing. -/
  | setRefs (t : Nat) (refs : List Nat)
  /-- Change the roots. -/
  | setRoots (roots : List Nat)
  /-- `WeakMap.prototype.set`, `WeakSet.prototype.add`, `new WeakRef`. -/
  | weakSet (m k v : Nat)
  /-- `WeakMap.prototype.delete`, `WeakSet.prototype.delete`. -/
  | weakDelete (m k : Nat)
  /-- `WeakMap.prototype.get`, `WeakRef.prototype.deref`; the result becomes a root. -/
  | weakGet (m k : Nat)
  /-- `rjs_gc_run`. -/
  | collect

/-- `WeakMap_prototype_get` (rjs_weak_map_object_inc.c:91-113). -/
def lookupEnt (h : Heap) (m k : Nat) : Option Nat := ((h.body m).ents.find? fun e => e.1 = k).map Prod.snd

/-- One step.  The things the step touches must be live, otherwise the result is `none`.
`rjs_gc_add`: rjs_gc.c:210-229; `weakSet`: rjs_weak_map_object_inc.c:147-178 with
`hash_add` (rjs_hash_object_inc.c:312-341) and `rjs_weak_ref_add`
(rjs_weak_ref_opt.c:37-53); `weakDelete`: rjs_weak_map_object_inc.c:60-88. -/
def step (cap fuel : Nat) (h : Heap) : Op → Option Heap
  | .alloc refs holder gc =>
    let t := h.fresh
    let h1 := { h with
      fresh := t + 1, list := t :: h.list, body := setBody h.body t ⟨refs, []⟩,
      marked := (fun x => if x = t then false else h.marked x),
      scanned := (fun x => if x = t then false else h.scanned x) }
    let h2 := match holder with
      | none => some { h1 with roots := h1.roots ++ [t] }
      | some o =>
        if o ∈ h.list then
          some { h1 with body := setBody h1.body o ⟨(h1.body o).refs ++ [t], (h1.body o).ents⟩ }
        else none
    match h2 with
    | none => none
    | some h2 => if gc then gcRun cap fuel h2 else some h2
  | .setRefs t refs =>
    if t ∈ h.list then some { h with body := setBody h.body t ⟨refs, (h.body t).ents⟩ } else none
  | .setRoots roots => some { h with roots := roots }
  | .weakSet m k v =>
    if m ∈ h.list ∧ k ∈ h.list then
      some { h with
        body := setBody h.body m ⟨(h.body m).refs,
          if k ∈ (h.body m).ents.map Prod.fst then
            (h.body m).ents.map fun e => if e.1 = k then (k, v) else e
          else (h.body m).ents ++ [(k, v)]⟩,
        weak := h.weak.filter (fun e => e ≠ (m, k)) ++ [(m, k)] }
    else none
  | .weakDelete m k =>
    if m ∈ h.list then
      some { h with
        body := setBody h.body m ⟨(h.body m).refs, (h.body m).ents.filter fun e => e.1 ≠ k⟩,
        weak := h.weak.filter fun e => e ≠ (m, k) }
    else none
  | .weakGet m k =>
    if m ∈ h.list then
      match lookupEnt h m k with
      | none => some h
      | some v => some { h with roots := h.roots ++ [v] }
    else none
  | .collect => gcRun cap fuel h

def run (cap fuel : Nat) : Heap → List Op → Option Heap
  | h, [] => some h
  | h, op :: ops =>
    match step cap fuel h op with
    | none => none
    | some h => run cap fuel h ops

/-- `rjs_runtime_gc_init` (rjs_gc.c:243-256): no things. -/
def init : Heap where
  list := []
  body := fun _ => ⟨[], []⟩
  marked := fun _ => false
  scanned := fun _ => false
  roots := []
  weak := []
  freed := []
  fresh := 0

end Verif.GC
