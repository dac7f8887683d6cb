import Verif.Model.RBT
/-
Model of the storage of the indexed properties of an object, `/repo/src/lib/rjs_object.c:
107-471, 1180-1207, 1264-1321`, with the fields of `RJS_Object` (`/repo/src/lib/include/
rjs_object.h:70-90`).

The properties with an array index as key are in a dense array (`vec`) or in a red black tree;
both share one place (`prop_array`).  `α` is the type of properties without the attribute
`DELETED`: a deleted cell of the array is `none`.  The nodes of the tree are named by their
index, as in the model of the tree; `val` is the property in a node.

`none` as the result of a function stands for the use of a null pointer, an access out of the
bounds of the array, or two nodes with one key in the tree.  Memory is taken not to run out.
-/
namespace Verif.PropStore
open RBT (Tree)

structure Store (α : Type) where
  /-- `flags & RJS_OBJECT_FL_RBT`. -/
  rbt : Bool
  /-- `prop_array.vec`; `none`: the null pointer. -/
  vec : Option (List (Option α))
  /-- `prop_array.rbt`. -/
  tree : Tree
  val : Nat → Option α
  num : Nat
  max : Nat
  cap : Nat

/-- A new object (`rjs_object_init`, rjs_object.c:1333-1357). -/
def empty {α : Type} : Store α := ⟨false, none, .leaf, fun _ => none, 0, 0, 0⟩

/-- `uint32_t`. -/
def u32 (n : Nat) : Nat := n % 2 ^ 32

/-- The search in the tree (lines 241-249). -/
def find (i : Nat) : Tree → Bool
  | .leaf => false
  | .node _ l k r => if k = i then true else if i < k then find i l else find i r

/-- `prop_lookup` with an index (lines 236-264); the outer `none`: undefined. -/
def lookup {α : Type} (s : Store α) (i : Nat) : Option (Option α) :=
  if s.rbt then
    if find i s.tree then
      match s.val i with
      | some p => some (some p)
      | none => none
    else some none
  else if s.cap ≠ 0 then
    if i > s.max then some none
    else
      match s.vec with
      | none => none
      | some v => v[i]?
  else some none

/-- `prop_rbt_set_vec` (lines 107-121). -/
def setVec {α : Type} (val : Nat → Option α) (len : Nat) : Tree → List (Option α) → List (Option α)
  | .leaf, v => v
  | .node _ l k r, v =>
    setVec val len r (setVec val len l (if k < len then v.set k (val k) else v))

/-- `prop_rbt_to_vec` (lines 123-144). -/
def rbtToVec {α : Type} (t : Tree) (val : Nat → Option α) (len : Nat) : Option (List (Option α)) :=
  match t with
  | .leaf => none
  | t => some (setVec val len t (List.replicate len none))

/-- The loop of `prop_vec_to_rbt` (lines 155-187) from `i` on, `n` rounds: the tree and the
properties in it. -/
def vecToRbt {α : Type} (v : List (Option α)) : Nat → Nat → Tree × (Nat → Option α) →
    Option (Tree × (Nat → Option α))
  | 0, _, a => some a
  | n + 1, i, (t, val) =>
    match v[i]? with
    | none => none
    | some none => vecToRbt v n (i + 1) (t, val)
    | some (some p) =>
      if find i t then none
      else
        match RBT.insert t i with
        | none => none
        | some t => vecToRbt v n (i + 1) (t, fun k => if k = i then some p else val k)

/-- `nlen` (line 332). -/
def newCap (max cap : Nat) : Nat :=
  Nat.min (Nat.max (u32 (max + 1)) (Nat.max (u32 (cap * 2)) 8)) 0xffffffff

/-- `prop_array_fixup` (lines 311-357). -/
def fixup {α : Type} (s : Store α) (num max : Nat) : Option (Store α) :=
  if !s.rbt then
    if max > u32 (num * 4) ∧ max > 16 then
      match s.vec with
      | none =>
        some { s with rbt := true, vec := none, tree := .leaf, val := fun _ => none, num, max }
      | some v =>
        match vecToRbt v (s.max + 1) 0 (.leaf, fun _ => none) with
        | none => none
        | some (t, val) => some { s with rbt := true, vec := none, tree := t, val, num, max }
    else if max ≥ s.cap then
      let nlen := newCap max s.cap
      match s.vec with
      | none =>
        -- a null pointer with a capacity: the first cells are not set
        if s.cap ≠ 0 then none
        else some { s with vec := some (List.replicate nlen none), cap := nlen, num, max }
      | some v =>
        some { s with vec := some (v ++ List.replicate (nlen - s.cap) none), cap := nlen, num, max }
    else some { s with num, max }
  else if max < u32 (num * 3) then
    some { s with
      rbt := false, vec := rbtToVec s.tree s.val (u32 (max + 1)), cap := u32 (max + 1),
      tree := .leaf, val := fun _ => none, num, max }
  else some { s with num, max }

/-- `prop_add` with an index (lines 367-399), and the filling in of the property by the caller
(lines 724-750). -/
def add {α : Type} (s : Store α) (i : Nat) (p : α) : Option (Store α) :=
  match fixup s (u32 (s.num + 1)) (Nat.max i s.max) with
  | none => none
  | some s =>
    if s.rbt then
      if find i s.tree then none
      else
        match RBT.insert s.tree i with
        | none => none
        | some t => some { s with tree := t, val := fun k => if k = i then some p else s.val k }
    else
      match s.vec with
      | none => none
      | some v => if i < v.length then some { s with vec := some (v.set i (some p)) } else none

/-- The change of a property found by `prop_lookup` (line 784). -/
def update {α : Type} (s : Store α) (i : Nat) (p : α) : Option (Store α) :=
  match lookup s i with
  | some (some _) =>
    if s.rbt then some { s with val := fun k => if k = i then some p else s.val k }
    else some { s with vec := s.vec.map fun v => v.set i (some p) }
  | _ => none

/-- The loop of `update_array_item_max` in an array (lines 300-305). -/
def lastLive {α : Type} (v : List (Option α)) : Nat → Option Nat
  | 0 => some 0
  | m + 1 =>
    match v[m + 1]? with
    | none => none
    | some none => lastLive v m
    | some (some _) => some (m + 1)

/-- `update_array_item_max` (lines 281-309). -/
def updateMax {α : Type} (s : Store α) : Option (Store α) :=
  if s.rbt then
    match RBT.last s.tree with
    | some k => some { s with max := k }
    | none => some { s with max := 0 }
  else
    match s.vec with
    | none => if s.max = 0 then some s else none
    | some v =>
      match lastLive v s.max with
      | none => none
      | some m => some { s with max := m }

/-- The removal of the property in `prop_delete` with an index (lines 425-444). -/
def removeAt {α : Type} (s : Store α) (i : Nat) : Option (Store α) :=
  if s.rbt then
    if find i s.tree then
      match RBT.remove s.tree i with
      | none => none
      | some t => some { s with tree := t }
    else none
  else
    match s.vec with
    | none => none
    | some v => if i < v.length then some { s with vec := some (v.set i none) } else none

/-- `prop_delete` with an index (lines 423-454). -/
def delete {α : Type} (s : Store α) (i : Nat) : Option (Store α) :=
  match removeAt s i with
  | none => none
  | some s =>
    match if i = s.max then updateMax s else some s with
    | none => none
    | some s => fixup s (u32 (s.num + (2 ^ 32 - 1))) s.max

/-- The indices in the loop over the array (lines 1197-1206), from `i` on, `n` rounds. -/
def vecKeys {α : Type} (v : List (Option α)) : Nat → Nat → Option (List Nat)
  | 0, _ => some []
  | n + 1, i =>
    match v[i]? with
    | none => none
    | some c =>
      match vecKeys v n (i + 1) with
      | none => none
      | some l => some (if c.isSome then i :: l else l)

/-- The indices in `rjs_property_key_list_add_own_keys` (lines 1181-1207). -/
def keys {α : Type} (s : Store α) : Option (List Nat) :=
  if s.rbt then some (RBT.walk (RBT.next s.tree) (2 ^ 32) (RBT.first s.tree))
  else if s.cap ≠ 0 then
    match s.vec with
    | none => none
    | some v => vecKeys v (s.max + 1) 0
  else some []

/-- The loop of `rjs_ordinary_object_delete_from_index` in a tree (lines 1275-1295): the tree, how
many nodes were removed, and the index of the node which could not be.  `cfg` is the attribute
`CONFIGURABLE`. -/
def cutTree {α : Type} (cfg : α → Bool) (val : Nat → Option α) (len : Nat) :
    Nat → Tree → Nat → Option (Tree × Nat × Option Nat)
  | 0, _, _ => none
  | f + 1, t, n =>
    match RBT.last t with
    | none => some (t, n, none)
    | some k =>
      if k < len then some (t, n, none)
      else
        match val k with
        | none => none
        | some p =>
          if !cfg p then some (t, n, some k)
          else
            match RBT.remove t k with
            | none => none
            | some t => cutTree cfg val len f t (n + 1)

/-- The loop in an array (lines 1299-1314): `m` is `i + 1`. -/
def cutVec {α : Type} (cfg : α → Bool) (len : Nat) :
    Nat → List (Option α) → Nat → Option (List (Option α) × Nat × Option Nat)
  | 0, v, n => some (v, n, none)
  | i + 1, v, n =>
    if i ≥ len then
      match v[i]? with
      | none => none
      | some none => cutVec cfg len i v n
      | some (some p) =>
        if !cfg p then some (v, n, some i) else cutVec cfg len i (v.set i none) (n + 1)
    else some (v, n, none)

/-- The loops (lines 1272-1315): the store, the number of deleted properties, and the last index
which could not be deleted. -/
def cut {α : Type} (cfg : α → Bool) (s : Store α) (len : Nat) :
    Option (Store α × Nat × Option Nat) :=
  if s.rbt then
    match cutTree cfg s.val len (s.num + 1) s.tree 0 with
    | none => none
    | some (t, n, last) => some ({ s with tree := t }, n, last)
  else
    match s.vec with
    | none => some (s, 0, none)
    | some v =>
      match cutVec cfg len (s.max + 1) v 0 with
      | none => none
      | some (v, n, last) => some ({ s with vec := some v }, n, last)

/-- `rjs_ordinary_object_delete_from_index` (lines 1264-1321): the store, and the last index which
could not be deleted, if there is one. -/
def deleteFrom {α : Type} (cfg : α → Bool) (s : Store α) (len : Nat) :
    Option (Store α × Option Nat) :=
  match cut cfg s len with
  | none => none
  | some (s, n, last) =>
    match updateMax s with
    | none => none
    | some s =>
      match fixup s (u32 (s.num + (2 ^ 32 - n))) s.max with
      | none => none
      | some s => some (s, last)

/-- What an object does with its indexed properties. -/
inductive Op (α : Type) where
  /-- Store a property: `prop_lookup`, then `prop_add` or a change (lines 908-933, 706-847). -/
  | put (i : Nat) (p : α)
  /-- `rjs_ordinary_object_op_delete` of a configurable property (lines 1133-1162). -/
  | del (i : Nat)
  /-- `rjs_ordinary_object_delete_from_index`. -/
  | cut (len : Nat)

/-- One operation.  Indices which are not array indices are kept elsewhere. -/
def step {α : Type} (cfg : α → Bool) (s : Store α) : Op α → Option (Store α)
  | .put i p =>
    match lookup s i with
    | none => none
    | some none => add s i p
    | some (some _) => update s i p
  | .del i =>
    match lookup s i with
    | none => none
    | some none => some s
    | some (some _) => delete s i
  | .cut len =>
    match deleteFrom cfg s len with
    | none => none
    | some (s, _) => some s

/-- Several operations. -/
def run {α : Type} (cfg : α → Bool) : Store α → List (Op α) → Option (Store α)
  | s, [] => some s
  | s, a :: l =>
    match step cfg s a with
    | none => none
    | some s => run cfg s l

end Verif.PropStore
