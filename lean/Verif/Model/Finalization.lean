/-
Model of the finalization registries (`/repo/src/lib/rjs_finalization_registry_opt.c`).

Objects are named by numbers.  A callback record is named by its address; the hash tables
`cb_hash` map a token to the address of a record (the hash table is modelled as the finite
map it implements, `Verif.Props.Hash`).  `none` stands for an access to a freed record.
Argument checks which throw a TypeError are left out.
-/
namespace Verif.Finalization

/-- `RJS_FinalizationCallback` (include/rjs_finalization_registry.h:46-53). -/
structure Cb where
  registry : Nat
  target : Nat
  held : Nat
  token : Option Nat
deriving DecidableEq

/-- `rt->final_cb_list` with the addresses of the records, the tables `cb_hash` of the
registries, and the queued cleanup jobs (registry whose function is called, held value). -/
structure St where
  cbs : List (Nat × Cb)
  hash : Nat → Nat → Option Nat
  fresh : Nat
  jobs : List (Nat × Nat)

def init : St := ⟨[], fun _ _ => none, 0, []⟩

def setHash (h : Nat → Nat → Option Nat) (r k : Nat) (v : Option Nat) : Nat → Nat → Option Nat :=
  fun r' k' => if r' = r ∧ k' = k then v else h r' k'

/-- Insert (lines 270-271) or remove (lines 134-142) the hash entry of a record, if it has a
token. -/
def setToken (h : Nat → Nat → Option Nat) (c : Cb) (v : Option Nat) : Nat → Nat → Option Nat :=
  match c.token with
  | none => h
  | some k => setHash h c.registry k v

/-- The hash entry of a token, if there is a token (lines 252-260). -/
def lookupToken (s : St) (r : Nat) : Option Nat → Option Nat
  | none => none
  | some k => s.hash r k

/-- `rjs_finalization_register` (lines 234-283). -/
def register (s : St) (c : Cb) : Option St :=
  match lookupToken s c.registry c.token with
  | some a =>
    if a ∈ s.cbs.map Prod.fst then
      some { s with cbs := s.cbs.map fun e => if e.1 = a then (a, c) else e }
    else none
  | none =>
    let a := s.fresh
    some { s with
      cbs := s.cbs ++ [(a, c)], fresh := a + 1,
      hash := setToken s.hash c (some a) }

/-- `rjs_finalization_unregister` (lines 294-319). -/
def unregister (s : St) (r k : Nat) : Option (St × Bool) :=
  match s.hash r k with
  | none => some (s, false)
  | some a =>
    if a ∈ s.cbs.map Prod.fst then
      some ({ s with cbs := s.cbs.filter fun e => e.1 ≠ a, hash := setHash s.hash r k none }, true)
    else none

/-- The loop of `rjs_solve_finalization_registry` (lines 109-149) over the list as it was at
the start; `dead`: the targets which are not marked. -/
def solveLoop (dead : Nat → Bool) : List (Nat × Cb) → St → St
  | [], s => s
  | (a, c) :: l, s =>
    if dead c.target then
      solveLoop dead l { s with
        jobs := s.jobs ++ [(c.registry, c.held)],
        hash := setToken s.hash c none,
        cbs := s.cbs.filter fun e => e.1 ≠ a }
    else solveLoop dead l s

def solve (dead : Nat → Bool) (s : St) : St := solveLoop dead s.cbs s

inductive Op where
  | register (c : Cb)
  | unregister (registry token : Nat)
  | collect (dead : Nat → Bool)

/-- One operation; the result of `unregister` is logged. -/
def step (s : St) : Op → Option (St × Option Bool)
  | .register c => (register s c).map fun s => (s, none)
  | .unregister r k => (unregister s r k).map fun p => (p.1, some p.2)
  | .collect dead => some (solve dead s, none)

def run : St → List Op → Option (St × List (Option Bool))
  | s, [] => some (s, [])
  | s, op :: ops =>
    match step s op with
    | none => none
    | some (s, o) =>
      match run s ops with
      | none => none
      | some (s, os) => some (s, o :: os)

end Verif.Finalization
