/-
Model of the methods of `Array.prototype` that take no function
(`/repo/src/lib/rjs_array_object_inc.c`).

Objects.  The methods work on any object with a `length`.  An object is the properties whose names
are the decimal texts of integers, the property `length`, and whether new properties may be added.
Names of 0 to 2^32 - 2 are the indices of an array; a negative number or a larger one is a name
like any other.  Not modelled: getters and setters, proxies, properties with integer names on the
prototypes, typed arrays, other properties.  The order of the properties is not kept (C31), nor
how they are stored (C30); how an array treats its `length` is the subject of C35 and is only
repeated here as far as the methods need it.

Numbers.  Arguments have been through `rjs_to_integer_or_infinity` (C22), which can throw: here
they are integers or infinities.  Additions of a length and an argument are done in `double`.  The
sum of a length (below 2^53) and a negative integer is exact, or below -2^53 like the exact one.
Conversion of a number to `int64_t` that does not fit is undefined behaviour: `undef`.

Outcomes.  What is thrown: a `TypeError` or a `RangeError`; the changes made before that are not
kept.  New arrays are made by `Array` (the constructor of the array has no other `@@species`).
-/
namespace Verif.ArrayOps

inductive Err | type | range | undef
  deriving DecidableEq, Repr

/-- A data property. -/
structure Slot (V : Type) where
  val : V
  writable : Bool := true
  configurable : Bool := true

structure Obj (V : Type) where
  /-- The properties whose names are the decimal texts of integers. -/
  elem : Int → Option (Slot V)
  /-- The value of `length`. -/
  len : Nat
  lenWritable : Bool := true
  ext : Bool := true
  /-- Is it an array, or another object? -/
  array : Bool := true

/-- The integers that are array indices (`prop_resolve`, `/repo/src/lib/rjs_object.c`:193-217, and
`rjs_string_to_index_internal`, `/repo/src/lib/rjs_string.c`:482-540). -/
def isIndex (k : Int) : Bool := 0 ≤ k && k < 2 ^ 32 - 1

/-- `RJS_MAX_INT` (`/repo/include/ratjs/rjs_types.h`:82). -/
def maxInt : Nat := 2 ^ 53 - 1

section
variable {V : Type}

def Obj.put (o : Obj V) (k : Int) (s : Option (Slot V)) : Obj V :=
  { o with elem := fun i => if i = k then s else o.elem i }

/-- `rjs_has_property`: `rjs_ordinary_object_op_has_property` (`/repo/src/lib/rjs_object.c`:944-971).
-/
def has (o : Obj V) (k : Int) : Bool := (o.elem k).isSome

/-- `rjs_get`, `rjs_get_index` (`/repo/include/ratjs/rjs_operation.h`:1146-1168); the default value
is `undefined`. -/
def get [Inhabited V] (o : Obj V) (k : Int) : V :=
  match o.elem k with
  | some s => s.val
  | none => default

/-- Making a property that is not there (`array_set_item`, `/repo/src/lib/rjs_array.c`:134-169, for
an array, and `rjs_ordinary_object_op_define_own_property`). -/
def add (o : Obj V) (k : Int) (v : V) : Except Err (Obj V) :=
  if o.array && isIndex k && decide (o.len ≤ k) then
    if !o.lenWritable then .error .type
    else if !o.ext then .error .type
    else .ok { o.put k (some { val := v }) with len := k.toNat + 1 }
  else if !o.ext then .error .type
  else .ok (o.put k (some { val := v }))

/-- `rjs_set` with `th` true, `rjs_set_index` (rjs_operation.h:1281-1328). -/
def set (o : Obj V) (k : Int) (v : V) : Except Err (Obj V) :=
  match o.elem k with
  | some s => if s.writable then .ok (o.put k (some { s with val := v })) else .error .type
  | none => add o k v

/-- `rjs_create_data_property_or_throw`, also with `_index` (rjs_operation.h:1581-1629).  A
property that is there and cannot be configured is not accepted; the methods use this on new
arrays only. -/
def create (o : Obj V) (k : Int) (v : V) : Except Err (Obj V) :=
  match o.elem k with
  | some s => if s.configurable then .ok (o.put k (some { val := v })) else .error .type
  | none => add o k v

/-- `rjs_delete_property_or_throw`, also with `_index` (rjs_operation.h:1502-1544). -/
def del (o : Obj V) (k : Int) : Except Err (Obj V) :=
  match o.elem k with
  | some s => if s.configurable then .ok (o.put k none) else .error .type
  | none => .ok o

/-- Is there, from `n` up and below the length, a property that cannot be removed? -/
def stuck (o : Obj V) (n : Nat) : Bool :=
  (List.range o.len).any fun i =>
    decide (n ≤ i) && match o.elem i with
      | some s => !s.configurable
      | none => false

/-- `rjs_set` of `length` with `th` true: for an array `array_set_length` (rjs_array.c:29-131). -/
def setLen (o : Obj V) (n : Nat) : Except Err (Obj V) :=
  if !o.lenWritable then .error .type
  else if !o.array then .ok { o with len := n }
  else if 2 ^ 32 ≤ n then .error .range
  else if o.len ≤ n then .ok { o with len := n }
  else if stuck o n then .error .type
  else .ok { o with
    len := n, elem := fun i => if (n : Int) ≤ i ∧ i < o.len then none else o.elem i }

/-- `rjs_array_new` (rjs_array.c:223-254). -/
def newArray (n : Nat) : Except Err (Obj V) :=
  if 2 ^ 32 - 1 < n then .error .range else .ok { elem := fun _ => none, len := n }

end

/-! ## Numbers -/

/-- What `rjs_to_integer_or_infinity` gives. -/
inductive Num | fin (n : Int) | pinf | ninf
  deriving DecidableEq, Repr

/-- The place an argument stands for: the same lines in `copyWithin` (534-539, 543-548, 556-561),
`fill` (781-786, 793-798), `slice` (2101-2106, 2115-2120), `splice` (2436-2441) and `toSpliced`
(2767-2772). -/
def relIdx (rel : Num) (len : Nat) : Int :=
  match rel with
  | .ninf => 0
  | .pinf => len
  | .fin n => if n < 0 then max (len + n) 0 else min n len

/-- The argument `end` of `copyWithin` (550-561), `fill` (788-798) and `slice` (2108-2120):
`undefined` stands for the length. -/
def relEnd (rel : Option Num) (len : Nat) : Int :=
  match rel with
  | none => relIdx (.fin len) len
  | some r => relIdx r len

/-- `RJS_CLAMP(dc, 0, m)` (`/repo/include/ratjs/rjs_macros.h`:50-60). -/
def clamp (dc : Num) (m : Int) : Int :=
  match dc with
  | .ninf => min 0 m
  | .pinf => m
  | .fin n => min (max n 0) m

/-- Conversion of a `double` to `int64_t`. -/
def toI64 : Num → Except Err Int
  | .fin n => if -(2 ^ 63) ≤ n ∧ n < 2 ^ 63 then .ok n else .error .undef
  | _ => .error .undef

/-- The sum of a length and a number. -/
def Num.addLen (len : Nat) : Num → Num
  | .fin n => .fin (len + n)
  | x => x

def Num.nonneg : Num → Bool
  | .fin n => 0 ≤ n
  | .pinf => true
  | .ninf => false

/-! ## Loops -/

/-- `n` rounds of a loop that counts up from `k`. -/
def up {σ : Type} (body : Int → σ → Except Err σ) : Nat → Int → σ → Except Err σ
  | 0, _, s => .ok s
  | n + 1, k, s => body k s >>= up body n (k + 1)

/-- `n` rounds of a loop that counts down from `k`. -/
def down {σ : Type} (body : Int → σ → Except Err σ) : Nat → Int → σ → Except Err σ
  | 0, _, s => .ok s
  | n + 1, k, s => body k s >>= down body n (k - 1)

/-- `for (k = a; k < b; k ++)`. -/
def forUp {σ : Type} (a b : Int) (body : Int → σ → Except Err σ) (s : σ) : Except Err σ :=
  up body (b - a).toNat a s

/-- `for (k = a; k >= b; k --)`. -/
def forDown {σ : Type} (a b : Int) (body : Int → σ → Except Err σ) (s : σ) : Except Err σ :=
  down body (a - b + 1).toNat a s

/-! ## Methods that change the array -/

section
variable {V : Type} [Inhabited V]

/-- If there is a property `src`, its value is assigned to `dst`; otherwise `dst` is deleted: the
same lines in `copyWithin` (582-600), `shift` (2043-2060), `splice` (2497-2512, 2524-2539) and
`unshift` (2912-2929). -/
def move (src dst : Int) (o : Obj V) : Except Err (Obj V) :=
  if has o src then set o dst (get o src) else del o dst

/-- The loop that assigns arguments from the index `k` on: `push` (1701-1708), `splice` (2543-2548),
`unshift` (2932-2937). -/
def assign : List V → Int → Obj V → Except Err (Obj V)
  | [], _, o => .ok o
  | v :: vs, k, o => set o k v >>= assign vs (k + 1)

/-- `Array_prototype_push` (1681-1720). -/
def push (args : List V) (o : Obj V) : Except Err (Nat × Obj V) :=
  if maxInt < o.len + args.length then .error .type
  else do
    let n := o.len + args.length
    let o1 ← assign args o.len o
    let o2 ← setLen o1 n
    .ok (n, o2)

/-- `Array_prototype_pop` (1633-1678). -/
def pop (o : Obj V) : Except Err (V × Obj V) :=
  if o.len = 0 then do
    let o1 ← setLen o 0
    .ok (default, o1)
  else do
    let v := get o (o.len - 1 : Int)
    let o1 ← del o (o.len - 1 : Int)
    let o2 ← setLen o1 (o.len - 1)
    .ok (v, o2)

/-- `Array_prototype_shift` (2008-2074). -/
def shift (o : Obj V) : Except Err (V × Obj V) :=
  if o.len = 0 then do
    let o1 ← setLen o 0
    .ok (default, o1)
  else do
    let v := get o 0
    let o1 ← forUp 1 o.len (fun k => move k (k - 1)) o
    let o2 ← del o1 (o.len - 1 : Int)
    let o3 ← setLen o2 (o.len - 1)
    .ok (v, o3)

/-- `Array_prototype_unshift` (2885-2949).  The loop goes on to `k = 0`. -/
def unshift (args : List V) (o : Obj V) : Except Err (Nat × Obj V) := do
  let argc := args.length
  let o2 ←
    if 0 < argc then
      if maxInt < o.len + argc then .error .type
      else do
        let o1 ← forDown o.len 0 (fun k => move (k - 1) (k + argc - 1)) o
        assign args 0 o1
    else .ok o
  let o3 ← setLen o2 (o.len + argc)
  .ok (o.len + argc, o3)

/-- One round of the loop of `Array_prototype_reverse` (1941-1998). -/
def swap (lower upper : Int) (o : Obj V) : Except Err (Obj V) :=
  let lowerV := get o lower
  let upperV := get o upper
  if has o lower && has o upper then do
    let o1 ← set o lower upperV
    set o1 upper lowerV
  else if has o upper then do
    let o1 ← set o lower upperV
    del o1 upper
  else if has o lower then do
    let o1 ← del o lower
    set o1 upper lowerV
  else .ok o

/-- `Array_prototype_reverse` (1919-2005). -/
def reverse (o : Obj V) : Except Err (Obj V) :=
  forUp 0 (o.len / 2 : Nat) (fun lower => swap lower (o.len - lower - 1)) o

/-- `Array_prototype_fill` (761-812). -/
def fill (v : V) (start : Num) (fin : Option Num) (o : Obj V) : Except Err (Obj V) :=
  forUp (relIdx start o.len) (relEnd fin o.len) (fun k o => set o k v) o

/-- `Array_prototype_copyWithin` (510-615). -/
def copyWithin (target start : Num) (fin : Option Num) (o : Obj V) : Except Err (Obj V) :=
  let dst := relIdx target o.len
  let src := relIdx start o.len
  let final := relEnd fin o.len
  let count := min (final - src) (o.len - dst)
  if src < dst ∧ dst < src + count then
    down (fun i => move (src + i) (dst + i)) count.toNat (count - 1) o
  else
    up (fun i => move (src + i) (dst + i)) count.toNat 0 o

/-- The arguments of `splice` and `toSpliced`: none; the first; the first two and values to insert.
-/
inductive SpliceArgs (V : Type)
  | none
  | start (s : Num)
  | full (s d : Num) (items : List V)

/-- `act_start` (2433-2441, 2764-2772): the first argument is `undefined` when there is none. -/
def SpliceArgs.from' (a : SpliceArgs V) (len : Nat) : Int :=
  match a with
  | .none => relIdx (.fin 0) len
  | .start s => relIdx s len
  | .full s _ _ => relIdx s len

/-- `act_del_cnt` (2448-2459), `act_skip` (2779-2790). -/
def SpliceArgs.count (a : SpliceArgs V) (len : Nat) : Int :=
  match a with
  | .none => 0
  | .start _ => len - a.from' len
  | .full _ d _ => clamp d (len - a.from' len)

/-- The values to insert: the arguments from the third on (2443-2446, 2774-2777). -/
def SpliceArgs.items : SpliceArgs V → List V
  | .full _ _ l => l
  | _ => []

/-- The loop of `splice` and `slice` that copies `n` elements from `src` on into the new array
(2132-2154, 2469-2486). -/
def copyOut (o : Obj V) (src : Int) (n : Nat) (a : Obj V) : Except Err (Obj V) :=
  up (fun k a => if has o (src + k) then create a k (get o (src + k)) else .ok a) n 0 a

/-- The loops of `splice` that make room or close the gap (2492-2541).  The first loop goes on to
the length, the third one to the start. -/
def spliceMove (start cnt ins len : Int) (o : Obj V) : Except Err (Obj V) :=
  if ins < cnt then do
    let o1 ← forUp start len (fun k => move (k + cnt) (k + ins)) o
    forDown len (len - cnt + ins + 1) (fun k o => del o (k - 1)) o1
  else if cnt < ins then
    forDown (len - cnt) start (fun k => move (k + cnt - 1) (k + ins - 1)) o
  else .ok o

/-- `Array_prototype_splice` (2410-2559): the array of the removed elements, and the object. -/
def splice (args : SpliceArgs V) (o : Obj V) : Except Err (Obj V × Obj V) :=
  let start := args.from' o.len
  let cnt := args.count o.len
  let ins : Int := args.items.length
  if (maxInt : Int) < o.len + ins - cnt then .error .type
  else do
    let a ← newArray cnt.toNat
    let a1 ← copyOut o start cnt.toNat a
    let a2 ← setLen a1 cnt.toNat
    let o1 ← spliceMove start cnt ins o.len o
    let o2 ← assign args.items start o1
    let o3 ← setLen o2 (o.len - cnt + ins).toNat
    .ok (a2, o3)

/-! ## Methods that leave the array as it is -/

/-- `Array_prototype_slice` (2077-2165). -/
def slice (start : Num) (fin : Option Num) (o : Obj V) : Except Err (Obj V) :=
  let k := relIdx start o.len
  let final := relEnd fin o.len
  let count := if final < k then 0 else final - k
  do
    let a ← newArray count.toNat
    let a1 ← copyOut o k (final - k).toNat a
    setLen a1 (final - k).toNat

/-- An argument of `concat`, or the object itself: is it spread, or an element? -/
inductive Src (V : Type)
  | one (v : V)
  | many (o : Obj V)

/-- The loop of `Array_prototype_concat` (443-496). -/
def concatLoop : List (Src V) → Nat → Obj V → Except Err (Nat × Obj V)
  | [], n, a => .ok (n, a)
  | .many e :: rest, n, a =>
    if maxInt < n + e.len then .error .type
    else do
      let a1 ← up (fun k a => if has e k then create a (n + k) (get e k) else .ok a) e.len 0 a
      concatLoop rest (n + e.len) a1
  | .one v :: rest, n, a =>
    if maxInt ≤ n then .error .type
    else do
      let a1 ← create a n v
      concatLoop rest (n + 1) a1

/-- `Array_prototype_concat` (424-507). -/
def concat (items : List (Src V)) : Except Err (Obj V) := do
  let a ← newArray 0
  let (n, a1) ← concatLoop items 0 a
  setLen a1 n

/-- `Array_prototype_toReversed` (2607-2656). -/
def toReversed (o : Obj V) : Except Err (Obj V) := do
  let a ← newArray o.len
  forUp 0 o.len (fun k a => create a k (get o (o.len - k - 1))) a

/-- The loop that makes elements of arguments from the index `k` on: `toSpliced` (2818-2830). -/
def createAll : List V → Int → Obj V → Except Err (Obj V)
  | [], _, o => .ok o
  | v :: vs, k, o => create o k v >>= createAll vs (k + 1)

/-- `Array_prototype_toSpliced` (2742-2857). -/
def toSpliced (args : SpliceArgs V) (o : Obj V) : Except Err (Obj V) :=
  let start := args.from' o.len
  let skip := args.count o.len
  let ins : Int := args.items.length
  let newLen := o.len - skip + ins
  if (maxInt : Int) < newLen then .error .type
  else do
    let a ← newArray newLen.toNat
    let a1 ← forUp 0 start (fun i a => create a i (get o i)) a
    let a2 ← createAll args.items start a1
    forUp (start + ins) newLen (fun i a => create a i (get o (i - (start + ins) + (start + skip)))) a2

/-- `act_index` (2992-2995). -/
def actIndex (index : Num) (len : Nat) : Except Err Int :=
  if index.nonneg then toI64 index else toI64 (index.addLen len)

/-- `Array_prototype_with` (2968-3033). -/
def with' (index : Num) (v : V) (o : Obj V) : Except Err (Obj V) := do
  let act ← actIndex index o.len
  if act < 0 ∨ o.len ≤ act then .error .range
  else do
    let a ← newArray o.len
    forUp 0 o.len (fun k a => create a k (if k = act then v else get o k)) a

/-- `Array_prototype_at` (304-339). -/
def at' (index : Num) (o : Obj V) : V :=
  match index with
  | .fin n =>
    let k := if 0 ≤ n then n else o.len + n
    if k < 0 ∨ o.len ≤ k then default else get o k
  | _ => default

/-- Looking upwards from `k` (`includes` 1329-1340, `indexOf` 1395-1419): the first of the next `n`
indices that `p` accepts. -/
def searchUp (p : Int → Bool) : Nat → Int → Option Int
  | 0, _ => none
  | n + 1, k => if p k then some k else searchUp p n (k + 1)

/-- Looking downwards from `k` (`lastIndexOf` 1539-1563). -/
def searchDown (p : Int → Bool) : Nat → Int → Option Int
  | 0, _ => none
  | n + 1, k => if p k then some k else searchDown p n (k - 1)

/-- Where `includes` and `indexOf` start (1309-1327, 1375-1393); `none`: there is nothing to look
at. -/
def searchFrom (n : Num) (len : Nat) : Except Err (Option Int) :=
  match n with
  | .pinf => .ok none
  | .ninf => .ok (some 0)
  | .fin m =>
    if 0 ≤ m then do
      let k ← toI64 (.fin m)
      .ok (some k)
    else do
      let k ← toI64 (.fin (len + m))
      .ok (some (if k < 0 then 0 else k))

/-- `Array_prototype_includes` (1286-1347); `eq` is `rjs_same_value_0`. -/
def includes (eq : V → V → Bool) (x : V) (from' : Num) (o : Obj V) : Except Err Bool :=
  if o.len = 0 then .ok false
  else do
    let start ← searchFrom from' o.len
    match start with
    | none => .ok false
    | some k => .ok (searchUp (fun k => eq (get o k) x) (o.len - k).toNat k).isSome

/-- `Array_prototype_indexOf` (1350-1426); `eq` is `rjs_is_strictly_equal`. -/
def indexOf (eq : V → V → Bool) (x : V) (from' : Num) (o : Obj V) : Except Err Int :=
  if o.len = 0 then .ok (-1)
  else do
    let start ← searchFrom from' o.len
    match start with
    | none => .ok (-1)
    | some k =>
      .ok ((searchUp (fun k => has o k && eq (get o k) x) (o.len - k).toNat k).getD (-1))

/-- Where `lastIndexOf` starts (1520-1537); -1 if there is nothing to look at. -/
def lastFrom (from' : Option Num) (len : Nat) : Except Err Int :=
  match from'.getD (.fin (len - 1)) with
  | .ninf => .ok (-1)
  | .pinf => .ok (len - 1)
  | .fin m => if 0 ≤ m then .ok (min m (len - 1)) else toI64 (.fin (len + m))

/-- `Array_prototype_lastIndexOf` (1495-1570). -/
def lastIndexOf (eq : V → V → Bool) (x : V) (from' : Option Num) (o : Obj V) : Except Err Int :=
  if o.len = 0 then .ok (-1)
  else do
    let k ← lastFrom from' o.len
    .ok ((searchDown (fun k => has o k && eq (get o k) x) (k + 1).toNat k).getD (-1))

/-- The loop of `Array_prototype_join` (1456-1469) from `k` on; `str` is `rjs_to_string`, and
`none` for `undefined` and `null`. -/
def joinLoop (str : V → Option (List Nat)) (sep : List Nat) (o : Obj V) : Nat → Nat → List Nat
  | 0, _ => []
  | n + 1, k =>
    (if 0 < k then sep else []) ++ (str (get o k)).getD [] ++ joinLoop str sep o n (k + 1)

/-- `Array_prototype_join` (1429-1476). -/
def join (str : V → Option (List Nat)) (sep : Option (List Nat)) (o : Obj V) : List Nat :=
  joinLoop str (sep.getD [44]) o o.len 0

end

/-! ## Arrays in arrays -/

mutual
/-- An element of an array: another array, or something else. -/
inductive Item (V : Type)
  | val (v : V)
  | arr (l : Items V)
/-- The elements of an array, holes among them. -/
inductive Items (V : Type)
  | nil
  | hole (t : Items V)
  | cons (h : Item V) (t : Items V)
end

/-- `depth` of `flatten_into_array`: a number, or infinity. -/
inductive Depth | fin (n : Nat) | inf
  deriving DecidableEq

def Depth.pred : Depth → Depth
  | .fin n => .fin (n - 1)
  | .inf => .inf

/-- The target index and the target. -/
abbrev FlatState (V : Type) := Nat × Obj (Item V)

mutual
/-- `flatten_into_array` (1069-1154) without `map_fn`, from one index of the source on.  The arrays
in the array are finite and do not contain themselves. -/
def flattenInto {V : Type} (d : Depth) : Items V → FlatState V → Except Err (FlatState V)
  | .nil, s => .ok s
  | .hole t, s => flattenInto d t s
  | .cons h t, s => do
    let s1 ← flattenItem d h s
    flattenInto d t s1

/-- What is done with one element (1110-1144). -/
def flattenItem {V : Type} (d : Depth) : Item V → FlatState V → Except Err (FlatState V)
  | .arr l, s =>
    if d = .fin 0 then
      if maxInt ≤ s.1 then .error .type
      else do
        let a ← create s.2 s.1 (.arr l)
        .ok (s.1 + 1, a)
    else flattenInto d.pred l s
  | .val v, s =>
    if maxInt ≤ s.1 then .error .type
    else do
      let a ← create s.2 s.1 (.val v)
      .ok (s.1 + 1, a)
end

/-- `depth_num` (1173-1181). -/
def depthOf : Option Num → Depth
  | none => .fin 1
  | some (.fin n) => .fin n.toNat
  | some .pinf => .inf
  | some .ninf => .fin 0

/-- `Array_prototype_flat` (1157-1195). -/
def flat {V : Type} (depth : Option Num) (l : Items V) : Except Err (Obj (Item V)) := do
  let a ← newArray 0
  let (_, a1) ← flattenInto (depthOf depth) l (0, a)
  .ok a1

end Verif.ArrayOps
