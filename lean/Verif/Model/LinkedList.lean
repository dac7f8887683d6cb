/-
Model of the intrusive doubly linked list (`/repo/include/ratjs/rjs_list.h`).

A heap maps the address of every list node (heads included) to its two pointers.
The functions perform the assignments of the C code in the same order.
-/
namespace Verif.LinkedList

/-- `RJS_List` structures by address (include/ratjs/rjs_type.h, `RJS_List`). -/
structure Heap where
  next : Nat → Nat
  prev : Nat → Nat

/-- `p->next = v` -/
def Heap.setNext (h : Heap) (p v : Nat) : Heap :=
  { h with next := fun a => if a = p then v else h.next a }

/-- `p->prev = v` -/
def Heap.setPrev (h : Heap) (p v : Nat) : Heap :=
  { h with prev := fun a => if a = p then v else h.prev a }

/-- `rjs_list_init` (rjs_list.h:47-52). -/
def init (h : Heap) (l : Nat) : Heap := (h.setPrev l l).setNext l l

/-- `rjs_list_is_empty` (rjs_list.h:60-64). -/
def isEmpty (h : Heap) (l : Nat) : Bool := h.next l == l

/-- `rjs_list_has_1_node` (rjs_list.h:72-79). -/
def has1Node (h : Heap) (l : Nat) : Bool :=
  if isEmpty h l then false else h.next l == h.prev l

/-- `rjs_list_append` (rjs_list.h:86-93). -/
def append (h : Heap) (l n : Nat) : Heap :=
  let h := h.setPrev n (h.prev l)
  let h := h.setNext n l
  let h := h.setNext (h.prev l) n
  h.setPrev l n

/-- `rjs_list_prepend` (rjs_list.h:100-107). -/
def prepend (h : Heap) (l n : Nat) : Heap :=
  let h := h.setPrev n l
  let h := h.setNext n (h.next l)
  let h := h.setPrev (h.next l) n
  h.setNext l n

/-- `rjs_list_remove` (rjs_list.h:113-118). -/
def remove (h : Heap) (n : Nat) : Heap :=
  let h := h.setNext (h.prev n) (h.next n)
  h.setPrev (h.next n) (h.prev n)

/-- `rjs_list_join` (rjs_list.h:125-143). -/
def join (h : Heap) (l1 l2 : Nat) : Heap :=
  if isEmpty h l2 then h
  else
    let h1 := l1
    let t1 := h.prev l1
    let h2 := h.next l2
    let t2 := h.prev l2
    let h := h.setPrev h1 t2
    let h := h.setPrev h2 t1
    let h := h.setNext t1 h2
    h.setNext t2 h1

/-- `rjs_list_foreach` (rjs_list.h:145-): the nodes met from node `a` until the head
`l` is reached; `none` if that does not happen within `fuel` steps. -/
def walkNext (h : Heap) (l : Nat) : Nat → Nat → Option (List Nat)
  | 0, _ => none
  | fuel + 1, a => if a = l then some [] else (walkNext h l fuel (h.next a)).map (a :: ·)

/-- `rjs_list_foreach_r`: the same along the `prev` pointers. -/
def walkPrev (h : Heap) (l : Nat) : Nat → Nat → Option (List Nat)
  | 0, _ => none
  | fuel + 1, a => if a = l then some [] else (walkPrev h l fuel (h.prev a)).map (a :: ·)

/-- The operations on lists. -/
inductive Op
  | init (l : Nat)
  | append (l n : Nat)
  | prepend (l n : Nat)
  | remove (n : Nat)
  | join (l1 l2 : Nat)
deriving Repr

/-- One operation. -/
def step (h : Heap) : Op → Heap
  | .init l => init h l
  | .append l n => append h l n
  | .prepend l n => prepend h l n
  | .remove n => remove h n
  | .join l1 l2 => join h l1 l2

end Verif.LinkedList
