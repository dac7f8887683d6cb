import Verif.Model.ModLoad

/-!
# Loading modules with a host that answers later

`module_load_req_data_add` with its case for modules that are only allocated, `module_load_ok`,
`module_load_error`, `module_load_req_result` (rjs_module_opt.c:478-657) when `mod_load_func` keeps the
capability and answers in a later job.

Simplifications: every module but the first is loaded later; one load, no module before it; error values are
not followed.
-/

namespace Verif.ModLate

open Verif.ModLoad (Host upd)

/-- `RJS_ModuleStatus`, as far as loading goes. -/
inductive Status where
  | absent | allocated | loaded | requested | failed | unlinked
  deriving DecidableEq

/-- The state: as in `ModLoad`; `wait_cnt`; the modules whose promise the host still holds and whose
reactions are `module_load_ok` and `module_load_error`; the calls of `resolve` (true) and `reject` (false). -/
structure S where
  st : Nat → Status
  filled : Nat → List Nat
  hash : List Nat
  list : List Nat
  wait : Nat
  pending : List Nat
  settled : List Bool

/-- `lookup_module` (rjs_module_opt.c:1705-1801): the host returns RJS_OK and loads later. -/
def lookup (t : Nat) (s : S) : S :=
  if s.st t = .absent then { s with st := upd s.st t .allocated } else s

/-- The loop of `module_load_req_modules` (rjs_module_opt.c:561-576). -/
def requests (add : Nat → S → Option S) (m : Nat) : List (Option Nat) → S → Option S
  | [], s => some s
  | none :: _, s => some s
  | some t :: rs, s =>
    let s1 := lookup t s
    match add t { s1 with filled := upd s1.filled m (s1.filled m ++ [t]) } with
    | none => none
    | some s3 => requests add m rs s3

/-- `module_load_req_data_add` (rjs_module_opt.c:611-657), at most `n` calls deep. -/
def add (H : Host) : Nat → Nat → S → Option S
  | 0, _, _ => none
  | n + 1, m, s =>
    if m ∈ s.hash then some s
    else
      let s := { s with hash := m :: s.hash }
      match s.st m with
      | .allocated => some { s with wait := s.wait + 1, pending := s.pending ++ [m] }
      | .loaded | .requested =>
        (requests (add H n) m (H.reqs m) { s with st := upd s.st m .requested }).map
          fun s => { s with list := s.list ++ [m] }
      | _ => some s

/-- A request that failed (rjs_module_opt.c:496-508). -/
def failing (H : Host) (s : S) (m : Nat) : Bool :=
  decide ((s.filled m).length < (H.reqs m).length) || (s.filled m).any fun t => s.st t = .failed

/-- All modules of the list become unlinked, whatever the rounds (rjs_module_opt.c:485-533; the rounds are
in `ModLoad`: the failing ones are found in the first). -/
def unlinkAll : List Nat → S → S
  | [], s => s
  | m :: l, s => unlinkAll l { s with st := upd s.st m .unlinked }

/-- `module_load_req_result` (rjs_module_opt.c:478-543). -/
def result (H : Host) (s : S) : S :=
  if s.wait = 0 then
    let s1 := unlinkAll s.list s
    { s1 with list := [], settled := s.settled ++ [!s.list.any (failing H s)] }
  else s

/-- What the host does for a module it was asked for: it loads it and resolves; `rjs_load_module` fails and it
rejects; it rejects without a call of `rjs_load_module`. -/
inductive Answer where
  | ok | failed | refused

/-- The job of a reaction: `module_load_ok` (rjs_module_opt.c:586-600) or `module_load_error` (603-609), after
the host's answer for `t`; nothing if there is none to come. -/
def answer (H : Host) (n t : Nat) (a : Answer) (s : S) : Option S :=
  if t ∈ s.pending then
    let s1 := { s with wait := s.wait - 1, pending := s.pending.erase t }
    match a with
    | .ok =>
      (requests (add H n) t (H.reqs t) { s1 with st := upd s1.st t .requested }).map (result H)
    | .failed => some (result H { s1 with st := upd s1.st t .failed })
    | .refused => some (result H s1)
  else some s

/-- `rjs_module_load_requested` (rjs_module_opt.c:696-732). -/
def start (H : Host) (n root : Nat) : Option S :=
  (add H n root { st := upd (fun _ => .absent) root .loaded, filled := fun _ => [], hash := [], list := [],
                  wait := 0, pending := [], settled := [] }).map (result H)

/-- The answers in the order in which they come. -/
def answers (H : Host) (n : Nat) : List (Nat × Answer) → S → Option S
  | [], s => some s
  | (t, a) :: l, s =>
    match answer H n t a s with
    | none => none
    | some s => answers H n l s

end Verif.ModLate
