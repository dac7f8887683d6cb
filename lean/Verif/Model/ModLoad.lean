/-!
# Loading the modules a module asks for

`rjs_module_load_requested`, `module_load_req_data_add`, `module_load_req_modules`, `module_load_req_result`,
`lookup_module`, `load_module` (rjs_module_opt.c:478-732, 1647-1801) with a host that loads a module before it
answers (as the loaders of the project do).

Simplifications: a module is its number; linking and evaluation of earlier modules are not followed, these
modules count as `unlinked` (none of the functions tells the later statuses apart); the error value is not followed, only whether the promise is rejected; promises that the host settles later
(`module_load_ok`, `module_load_error`) are left out.
-/

namespace Verif.ModLoad

/-- `RJS_ModuleStatus`, as far as loading goes; `absent`: there is no such module yet. -/
inductive Status where
  | absent | loaded | requested | failed | unlinked
  deriving DecidableEq

/-- The modules there are: what a module asks for (`none`: `mod_lookup_func` does not find the name), whether
it can be loaded, and, if not, whether the loader gives RJS_ERR or rejects its promise. -/
structure Host where
  reqs : Nat → List (Option Nat)
  loadable : Nat → Bool
  errs : Nat → Bool

/-- The state: status of the modules, the modules found for the first requests of each (`mr->module`; the
others are undefined), `mod_hash`, `mod_list`. -/
structure S where
  st : Nat → Status
  filled : Nat → List Nat
  hash : List Nat
  list : List Nat

def upd {α : Type} (f : Nat → α) (k : Nat) (v : α) : Nat → α := fun i => if i = k then v else f i

/-- `lookup_module` and `load_module` for a module (rjs_module_opt.c:1646-1704, 1750-1801): a module that
exists is left as it is. -/
def lookup (H : Host) (t : Nat) (s : S) : S :=
  match s.st t with
  | .absent => { s with st := upd s.st t (if H.loadable t then .loaded else .failed) }
  | _ => s

/-- The loop of `module_load_req_modules` (rjs_module_opt.c:550-583) for module `m`; `add` is
`module_load_req_data_add`. -/
def requests (H : Host) (add : Nat → S → Option S) (m : Nat) : List (Option Nat) → S → Option S
  | [], s => some s
  | none :: _, s => some s
  | some t :: rs, s =>
    let s1 := lookup H t s
    let s2 := { s1 with filled := upd s1.filled m (s1.filled m ++ [t]) }
    if s.st t = .absent ∧ H.loadable t = false ∧ H.errs t = true then some s2
    else
      match add t s2 with
      | none => none
      | some s3 => requests H add m rs s3

/-- `module_load_req_data_add` (rjs_module_opt.c:611-657), at most `n` calls deep. -/
def add (H : Host) : Nat → Nat → S → Option S
  | 0, _, _ => none
  | n + 1, m, s =>
    if m ∈ s.hash then some s
    else
      let s := { s with hash := m :: s.hash }
      match s.st m with
      | .loaded | .requested =>
        (requests H (add H n) m (H.reqs m) { s with st := upd s.st m .requested }).map
          fun s => { s with list := s.list ++ [m] }
      | _ => some s

/-- A request that failed (rjs_module_opt.c:496-508). -/
def failing (H : Host) (s : S) (m : Nat) : Bool :=
  decide ((s.filled m).length < (H.reqs m).length) || (s.filled m).any fun t => s.st t = .failed

/-- A request that is not loaded yet (rjs_module_opt.c:504-505). -/
def waiting (s : S) (m : Nat) : Bool := (s.filled m).any fun t => s.st t = .requested

/-- One round over the list (rjs_module_opt.c:490-524): what stays in it, the state, whether a module
failed, whether one was taken from the list.  `LOADING_FAILED` is overwritten at once (513, 519). -/
def pass (H : Host) : List Nat → S → List Nat × S × Bool × Bool
  | [], s => ([], s, false, false)
  | m :: l, s =>
    if failing H s m || !waiting s m then
      let r := pass H l { s with st := upd s.st m .unlinked }
      (r.1, r.2.1, failing H s m || r.2.2.1, true)
    else
      let r := pass H l s
      (m :: r.1, r.2.1, r.2.2.1, r.2.2.2)

/-- All that are left (rjs_module_opt.c:526-532). -/
def unlinkAll : List Nat → S → S
  | [], s => s
  | m :: l, s => unlinkAll l { s with st := upd s.st m .unlinked }

/-- `module_load_req_result` (rjs_module_opt.c:478-543): the state, and whether a module failed. -/
def result (H : Host) : Nat → List Nat → S → S × Bool
  | 0, _, s => (s, false)
  | _ + 1, [], s => (s, false)
  | n + 1, m :: l, s =>
    let r := pass H (m :: l) s
    if r.2.2.2 then
      let q := result H n r.1 r.2.1
      (q.1, r.2.2.1 || q.2)
    else (unlinkAll r.1 r.2.1, r.2.2.1)

/-- The module `root` was loaded (rjs_module_opt.c:713). -/
def init (root : Nat) : S :=
  { st := upd (fun _ => .absent) root .loaded, filled := fun _ => [], hash := [], list := [] }

/-- `rjs_module_load_requested` (rjs_module_opt.c:696-732): the state, and whether the promise is resolved
(else rejected). -/
def loadFrom (H : Host) (n root : Nat) (s : S) : Option (S × Bool) :=
  (add H n root { s with hash := [], list := [] }).map fun s =>
    let r := result H (s.list.length + 1) s.list s
    (r.1, !r.2)

/-- The first load of a realm. -/
def load (H : Host) (n root : Nat) : Option (S × Bool) := loadFrom H n root (init root)

/-- `import()` of a module (rjs_module_opt.c:2203-2249, 2252-2300): it is looked up; one that is not loaded
rejects the promise, one whose requests were gone through before goes to linking at once (2218-2221). -/
def importOf (H : Host) (n root : Nat) (s : S) : Option (S × Bool) :=
  let s := lookup H root s
  match s.st root with
  | .failed => some (s, false)
  | .loaded => loadFrom H n root s
  | _ => some (s, true)

/-- No module yet (rjs_module_opt.c: `rt->mod_hash` is empty). -/
def empty : S := { st := fun _ => .absent, filled := fun _ => [], hash := [], list := [] }

/-- Imports one after the other, as long as they are resolved: the state, and whether all were. -/
def imports (H : Host) (n : Nat) : List Nat → S → Option (S × Bool)
  | [], s => some (s, true)
  | r :: rs, s =>
    match importOf H n r s with
    | none => none
    | some (s, false) => some (s, false)
    | some (s, true) => imports H n rs s

end Verif.ModLoad
