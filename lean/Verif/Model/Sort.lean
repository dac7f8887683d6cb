/-
Model of the merge sort (`/repo/src/lib/rjs_sort.c`) and of its use by
`Array.prototype.sort` (`/repo/src/lib/rjs_array_object_inc.c`).

The array `base` is a list, pointers into it are indices.  A read outside of the
array, a copy of temporary elements that were not written, and an overrun of the
temporary buffer are the outcome `ub`.  The comparison function is arbitrary: it
has a state (it may be user code), may fail, and may be inconsistent.  It is
assumed not to write to the array being sorted (`Array.prototype.sort` sorts a
private copy).
-/
namespace Verif.Sort

/-- `RJS_CompareResult` as far as `merge` looks at it (rjs_sort.c:44-54):
`RJS_ERR`, `RJS_COMPARE_GREATER`, or any other result. -/
inductive CR | err | greater | other
deriving DecidableEq, Repr

/-- How a run ends: `RJS_OK`, `RJS_ERR`, or undefined behaviour. -/
inductive Out | ok | err | ub
deriving DecidableEq, Repr

/-- State of a run: the comparison function's state, the array, the outcome. -/
structure Run (σ α : Type) where
  st : σ
  arr : List α
  out : Out

/-- Overwrite the elements from index `i` on (the `memcpy` of rjs_sort.c:70-71). -/
def overwrite {α : Type} (arr : List α) (i : Nat) (t : List α) : List α :=
  arr.take i ++ t ++ arr.drop (i + t.length)

/-- Elements `i .. j` inclusive (`memcpy` of rjs_sort.c:58-68). -/
def slice {α : Type} (arr : List α) (i j : Nat) : List α := (arr.take (j + 1)).drop i

/-- The `while` loop of `merge` (rjs_sort.c:43-56): `l`, `r` are the indices of the
pointers, `t` the temporary elements written so far.  Ends with the new `l`, `r`,
`t`, or with an outcome that is not `ok`.  `fuel` bounds the iterations; running
out of it is reported as `ub` and proved not to happen. -/
def mergeLoop {σ α : Type} (cmp : σ → α → α → σ × CR) (base : List α) (mid max : Nat) :
    Nat → Nat → Nat → List α → σ → σ × Out × Nat × Nat × List α
  | 0, l, r, t, s => (s, if l ≤ mid ∧ r ≤ max then .ub else .ok, l, r, t)
  | fuel + 1, l, r, t, s =>
    if l ≤ mid ∧ r ≤ max then
      match base[l]?, base[r]? with
      | some x, some y =>
        match cmp s x y with
        | (s', .err) => (s', .err, l, r, t)
        | (s', .greater) => mergeLoop cmp base mid max fuel l (r + 1) (t ++ [y]) s'
        | (s', .other) => mergeLoop cmp base mid max fuel (l + 1) r (t ++ [x]) s'
      | _, _ => (s, .ub, l, r, t)
    else (s, .ok, l, r, t)

/-- `merge` (rjs_sort.c:29-73).  `num` is the number of elements of the temporary
buffer. -/
def merge {σ α : Type} (cmp : σ → α → α → σ × CR) (num : Nat) (base : List α)
    (min mid max : Nat) (s : σ) : Run σ α :=
  match mergeLoop cmp base mid max (max + 1 - min) min (mid + 1) [] s with
  | (s', .ok, l, r, t) =>
    let t := if l ≤ mid then t ++ slice base l mid else t
    let t := if r ≤ max then t ++ slice base r max else t
    if t.length > num ∨ t.length < max - min + 1 ∨ max ≥ base.length then ⟨s', base, .ub⟩
    else ⟨s', overwrite base min (t.take (max - min + 1)), .ok⟩
  | (s', o, _, _, _) => ⟨s', base, o⟩

/-- `sort` (rjs_sort.c:76-95); `fuel` bounds the depth of the recursion. -/
def sort {σ α : Type} (cmp : σ → α → α → σ × CR) (num : Nat) :
    Nat → List α → Nat → Nat → σ → Run σ α
  | 0, base, min, max, s => if max ≤ min then ⟨s, base, .ok⟩ else ⟨s, base, .ub⟩
  | fuel + 1, base, min, max, s =>
    if max ≤ min then ⟨s, base, .ok⟩
    else
      let mid := (min + max) / 2
      match sort cmp num fuel base min mid s with
      | ⟨s1, b1, .ok⟩ =>
        match sort cmp num fuel b1 (mid + 1) max s1 with
        | ⟨s2, b2, .ok⟩ => merge cmp num b2 min mid max s2
        | r => r
      | r => r

/-- `rjs_sort` (rjs_sort.c:108-123). -/
def rjsSort {σ α : Type} (cmp : σ → α → α → σ × CR) (s : σ) (base : List α) : Run σ α :=
  if base.length < 2 then ⟨s, base, .ok⟩
  else sort cmp base.length base.length base 0 (base.length - 1) s

/-- `array_item_compare_fn` (rjs_array_object_inc.c:2267-2328): an element is
`none` when it is `undefined`; the result of the user function (or of the string
comparison) is given by `cmp`. -/
def itemCmp {σ α : Type} (cmp : σ → α → α → σ × CR) (s : σ) : Option α → Option α → σ × CR
  | none, none => (s, .other)
  | none, some _ => (s, .greater)
  | some _, none => (s, .other)
  | some x, some y => cmp s x y

/-- `Array.prototype.sort` (rjs_array_object_inc.c:2331-2407) on an array whose
elements are holes (`none`), `undefined` (`some none`) or other values.  The
present elements are collected in front of a buffer filled with `undefined`, the
buffer is sorted, the first `nitem` are written back, the rest is deleted.
Getters, setters and prototypes are left out.  On failure the array is not
changed. -/
def arraySort {σ α : Type} (cmp : σ → α → α → σ × CR) (s : σ) (arr : List (Option (Option α))) :
    σ × Out × List (Option (Option α)) :=
  let items := arr.filterMap id
  let buf := items ++ List.replicate (arr.length - items.length) none
  match rjsSort (itemCmp cmp) s buf with
  | ⟨s', b, .ok⟩ =>
    (s', .ok, (b.take items.length).map some ++ List.replicate (arr.length - items.length) none)
  | ⟨s', _, o⟩ => (s', o, arr)

end Verif.Sort
