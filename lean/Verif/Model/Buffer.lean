import Verif.Model.Raw
/-
Model of array buffers, data views and typed arrays as a transition system
(`/repo/src/lib/rjs_array_buffer_opt.c`, `rjs_array_buffer_object_inc.c`, `rjs_data_block_opt.c`,
`rjs_data_view_object_inc.c`, `rjs_int_indexed_object_opt.c`, `rjs_typed_array_object_inc.c`,
`rjs_atomics_object_inc.c`).

The built-in functions call back into the program when they convert an argument, look up the
prototype of a constructor, call a species constructor or a comparator.  At such a point the
operation is suspended: a frame is pushed, and the next events may be anything, also the detachment
of a buffer or further operations, until the program returns (`Ev.ret`) to the topmost frame.

Undefined behaviour is a fault.  Simplified:
* lengths are natural numbers; the code computes with `int64_t`, `size_t` and `double` in ranges
  where all of this is exact (an index is below `2 ^ 53`, the sum of a relative index and a length is
  only used if it is not negative);
* an access of zero bytes is no access;
* a failed allocation is not modelled (it throws and creates nothing the program sees);
* buffers are not garbage collected (that a reachable buffer is not freed is C07);
* the accesses of `rjs_sort` to the array are any accesses to elements of the array (C01 is about
  the sorting); `toSorted`, `subarray`, `with`, `from`, `map` and so on are left out: they use the
  operations modelled here, on their own new array or through `rjs_get_index`/`rjs_set_index`.
-/
namespace Verif.Buffer
open NumConv
open Raw (Byte Ty Val Fpu)

inductive Fault
  | null       -- use of the data block of a detached buffer
  | freed      -- use of a freed data block
  | bounds     -- access outside of the data block
  | overlap    -- memcpy between overlapping parts
  | deadlock   -- the lock of a data block is taken twice
  | cast       -- a number conversion which is undefined (see C40_violated)
deriving DecidableEq

/-- `RJS_DataBlock` (/repo/src/lib/rjs_internal.h); `mem` is `none` when it has been freed. -/
structure Block where
  refs : Nat
  mem : Option (List Byte)
  shared : Bool
deriving DecidableEq

/-- `RJS_ArrayBuffer` (rjs_array_buffer_internal.h): `data_block`, `byte_length`. -/
structure Buf where
  block : Option Nat
  len : Nat
deriving DecidableEq

/-- `RJS_DataView` (`ty` is `none`) and `RJS_IntIndexedObject`. -/
structure View where
  buf : Nat
  off : Nat
  blen : Nat
  alen : Nat
  ty : Option Ty
deriving DecidableEq

/-- An access to memory (not in the code; to speak about accesses). -/
structure Acc where
  blk : Nat
  lo : Nat
  n : Nat
deriving DecidableEq

/-- The operations of `Atomics` which read and write at once. -/
inductive Rmw
  | add | and | or | xor | sub | xchg
deriving DecidableEq

/-- A suspended operation, with what it has computed so far. -/
inductive Frame
  | dvOff (b : Nat) (hasLen : Bool)
  | dvLen (b off cap : Nat)
  | dvProto (b off len : Nat)
  | dvGet (v : Nat) (ty : Ty) (little : Bool)
  | dvSetIdx (v : Nat) (ty : Ty) (little : Bool)
  | dvSetVal (v : Nat) (ty : Ty) (little : Bool) (idx : Nat)
  | taLen (ty : Ty)
  | taLenProto (ty : Ty) (n : Nat)
  | taBufProto (ty : Ty) (b : Nat) (hasLen : Bool)
  | taBufOff (ty : Ty) (b : Nat) (hasLen : Bool)
  | taBufLen (ty : Ty) (b off : Nat)
  | taTyped (ty : Ty) (src : Nat)
  | elemSet (v : Nat) (n : Num)
  | cwTo (v : Nat) (hasEnd : Bool)
  | cwFrom (v : Nat) (hasEnd : Bool) (dst : Nat)
  | cwEnd (v dst frm : Nat)
  | fillVal (v : Nat) (hasEnd : Bool)
  | fillStart (v : Nat) (hasEnd : Bool) (x : Val)
  | fillEnd (v : Nat) (x : Val) (k : Nat)
  | setOff (t s : Nat)
  | slStart (v : Nat) (hasEnd : Bool)
  | slEnd (v k : Nat)
  | slSpecies (v k final : Nat)
  | sort (blk off n esize : Nat)
  | abStart (b : Nat) (hasEnd : Bool) (len : Nat)
  | abEnd (b len first : Nat)
  | abSpecies (b first n : Nat)
  | atLoad (v : Nat)
  | atStoreIdx (v : Nat)
  | atStoreVal (v pos : Nat)
  | atIdx (v : Nat) (op : Rmw)
  | atVal (ty : Ty) (op : Rmw) (blk pos : Nat)
deriving DecidableEq

structure State where
  blocks : List Block
  bufs : List Buf
  views : List View
  frames : List Frame
  log : List Acc
deriving DecidableEq

def init : State := ⟨[], [], [], [], []⟩

/-- What an operation comes to; `pending`: it is suspended; `bad`: there is no such event in this
state (nothing happens). -/
inductive Res
  | pending | bad | typeError | rangeError | thrown | undef
  | val (v : Val) | view (v : Nat) | buf (b : Nat)
deriving DecidableEq

/-- What the program returns to a suspended operation. -/
inductive Ret
  | thrown | num (x : Num) | val (v : Val) | view (v : Nat) | buf (b : Nat) | done
  | swap (i : Nat) (b : List Byte)
deriving DecidableEq

inductive Call
  | dataView (b : Nat) (hasLen : Bool)
  | dvGet (v : Nat) (ty : Ty) (little : Bool)
  | dvSet (v : Nat) (ty : Ty) (little : Bool)
  | taLength (ty : Ty)
  | taBuffer (ty : Ty) (b : Nat) (hasLen : Bool)
  | taTyped (ty : Ty) (src : Nat)
  | elemGet (v : Nat) (n : Num)
  | elemSet (v : Nat) (n : Num)
  | copyWithin (v : Nat) (hasEnd : Bool)
  | fill (v : Nat) (hasEnd : Bool)
  | setFrom (t s : Nat)
  | slice (v : Nat) (hasEnd : Bool)
  | sort (v : Nat)
  | abSlice (b : Nat) (hasEnd : Bool)
  | atLoad (v : Nat)
  | atStore (v : Nat)
  | atRmw (v : Nat) (op : Rmw)
deriving DecidableEq

inductive Ev
  | newBuf (len : Nat) (shared : Bool)
  | alias (b : Nat)
  | detach (b : Nat)
  | call (c : Call)
  | ret (r : Ret)
deriving DecidableEq

abbrev M := Except Fault

/-! ### Conversions -/

/-- The result of `rjs_to_integer_or_infinity`. -/
inductive Ioi
  | fin (i : Int) | pinf | ninf
deriving DecidableEq

/-- `rjs_to_integer_or_infinity` after `rjs_to_number` (/repo/include/ratjs/rjs_operation.h:711-721). -/
def ioi : Num → Ioi
  | .nan => .fin 0
  | .inf neg => if neg then .ninf else .pinf
  | .fin neg m e => .fin (cut neg m e)

/-- `rjs_to_index` (/repo/src/lib/rjs_operation.c:165-197) after the conversion; `none`: RangeError. -/
def toIndex (x : Num) : Option Nat :=
  match ioi x with
  | .fin i => if 0 ≤ i ∧ i ≤ 0x1fffffffffffff then some i.toNat else none
  | _ => none

/-- A relative index (e.g. rjs_typed_array_object_inc.c:318-323). -/
def rel (len : Nat) (x : Num) : Nat :=
  match ioi x with
  | .ninf => 0
  | .pinf => len
  | .fin i => if i < 0 then (i + len).toNat else min i.toNat len

/-! ### Memory -/

/-- `ab->data_block` where it is used without a check. -/
def blockOf (s : State) (b : Nat) : M Nat :=
  match s.bufs[b]? with
  | some ⟨some k, _⟩ => .ok k
  | _ => .error .null

def memOf (s : State) (k : Nat) : M (List Byte) :=
  match s.blocks[k]? with
  | some ⟨_, some m, _⟩ => .ok m
  | _ => .error .freed

def setMem (s : State) (k : Nat) (m : List Byte) : State :=
  match s.blocks[k]? with
  | some B => { s with blocks := s.blocks.set k { B with mem := some m } }
  | none => s

def note (s : State) (k lo n : Nat) : State := { s with log := s.log ++ [⟨k, lo, n⟩] }

/-- Read `n` bytes at `lo`. -/
def rd (s : State) (k lo n : Nat) : M (State × List Byte) :=
  if n = 0 then .ok (s, [])
  else
    match memOf s k with
    | .error f => .error f
    | .ok m => if lo + n ≤ m.length then .ok (note s k lo n, (m.drop lo).take n) else .error .bounds

/-- Write bytes at `lo`. -/
def wr (s : State) (k lo : Nat) (b : List Byte) : M State :=
  if b.length = 0 then .ok s
  else
    match memOf s k with
    | .error f => .error f
    | .ok m =>
      if lo + b.length ≤ m.length then .ok (setMem (note s k lo b.length) k (Raw.overwrite m lo b))
      else .error .bounds

/-- `memmove`. -/
def move (s : State) (tk tlo sk slo n : Nat) : M State :=
  match rd s sk slo n with
  | .error f => .error f
  | .ok (s, b) => wr s tk tlo b

/-- `memcpy`. -/
def copy (s : State) (tk tlo sk slo n : Nat) : M State :=
  if tk = sk ∧ n ≠ 0 ∧ tlo < slo + n ∧ slo < tlo + n then .error .overlap else move s tk tlo sk slo n

/-- `rjs_get_value_from_raw` on the bytes of an element. -/
def getAt (F : Fpu) (s : State) (k pos : Nat) (ty : Ty) (little : Bool) : M (State × Val) :=
  match rd s k pos ty.size with
  | .error f => .error f
  | .ok (s, b) =>
    match Raw.get F b 0 ty little with
    | none => .error .cast
    | some v => .ok (s, v)

/-- `rjs_set_value_in_raw` on the bytes of an element. -/
def putAt (F : Fpu) (s : State) (k pos : Nat) (ty : Ty) (v : Val) (little : Bool) : M State :=
  match Raw.put F (List.replicate ty.size 0) 0 ty v little with
  | none => .error .cast
  | some b => wr s k pos b

/-! ### Buffers -/

/-- `rjs_is_detached_buffer` (rjs_array_buffer_opt.c:70-82). -/
def detached (s : State) (b : Nat) : Bool :=
  match s.bufs[b]? with
  | some ⟨some _, _⟩ => false
  | _ => true

/-- `rjs_is_shared_array_buffer` (rjs_array_buffer_opt.c:92-108). -/
def isShared (s : State) (b : Nat) : Bool :=
  match s.bufs[b]? with
  | some ⟨some k, _⟩ =>
    match s.blocks[k]? with
    | some B => B.shared
    | none => false
  | _ => false

/-- `rjs_allocate_array_buffer` (rjs_array_buffer_opt.c:162-183) and the shared variant without a
data block (225-250); the new data block and the new buffer are the last ones. -/
def alloc (s : State) (len : Nat) (shared : Bool) : State :=
  { s with blocks := s.blocks ++ [⟨1, some (List.replicate len 0), shared⟩],
           bufs := s.bufs ++ [⟨some s.blocks.length, len⟩] }

/-- `rjs_data_block_ref` (rjs_data_block_opt.c:191-196). -/
def ref (s : State) (k : Nat) : State :=
  match s.blocks[k]? with
  | some B => { s with blocks := s.blocks.set k { B with refs := B.refs + 1 } }
  | none => s

/-- `rjs_data_block_unref` (rjs_data_block_opt.c:204-208). -/
def unref (s : State) (k : Nat) : State :=
  match s.blocks[k]? with
  | some B =>
    { s with blocks := s.blocks.set k { B with refs := B.refs - 1, mem := if B.refs = 1 then none else B.mem } }
  | none => s

/-- `rjs_detach_array_buffer` (rjs_array_buffer_opt.c:193-209). -/
def detach (s : State) (b : Nat) : State :=
  match s.bufs[b]? with
  | some ⟨some k, _⟩ => let s := unref s k; { s with bufs := s.bufs.set b ⟨none, 0⟩ }
  | _ => s

/-- Suspend the operation. -/
def push (s : State) (f : Frame) : M (State × Res) := .ok ({ s with frames := f :: s.frames }, .pending)

/-- The new view is the result. -/
def addView (s : State) (V : View) : M (State × Res) :=
  .ok ({ s with views := s.views ++ [V] }, .view s.views.length)

def esize (V : View) : Nat :=
  match V.ty with
  | some ty => ty.size
  | none => 1

def isBig : Ty → Bool
  | .bu64 | .bi64 => true
  | _ => false

/-- The value is of the kind to which the code converts for the type. -/
def fitsTy (ty : Ty) : Val → Bool
  | .num _ => !isBig ty
  | .big _ => isBig ty

/-- The view, if it is a typed array, with its type; the view, if it is a data view. -/
def typed (s : State) (v : Nat) : Option (View × Ty) :=
  match s.views[v]? with
  | some V =>
    match V.ty with
    | some ty => some (V, ty)
    | none => none
  | none => none
def dview (s : State) (v : Nat) : Option View :=
  match s.views[v]? with
  | some V => if V.ty = none then some V else none
  | none => none

/-! ### Elements of typed arrays -/

/-- `rjs_is_valid_int_index` (rjs_int_indexed_object_opt.c:65-84). -/
def validIndex (s : State) (V : View) (n : Num) : Option Nat :=
  if detached s V.buf then none
  else
    match n with
    | .fin neg m e =>
      if num m e % den e = 0 ∧ neg = false ∧ num m e / den e < V.alen then some (num m e / den e) else none
    | _ => none

/-- The same for an index which the code computed. -/
def validNat (s : State) (V : View) (i : Nat) : Bool := !detached s V.buf && i < V.alen

/-- The read of the element with a valid index (rjs_int_indexed_object_opt.c:107-111). -/
def elemAt (F : Fpu) (le : Bool) (s : State) (V : View) (ty : Ty) (i : Nat) : M (State × Val) :=
  match blockOf s V.buf with
  | .error f => .error f
  | .ok k => getAt F s k (V.off + ty.size * i) ty le

/-- The write of the element with a valid index (rjs_int_indexed_object_opt.c:152-156). -/
def putElem (F : Fpu) (le : Bool) (s : State) (V : View) (ty : Ty) (i : Nat) (x : Val) : M State :=
  match blockOf s V.buf with
  | .error f => .error f
  | .ok k => putAt F s k (V.off + ty.size * i) ty x le

/-- `rjs_set_index` in a loop over `n` indices from `i` on with the same value (the loop of `fill`,
rjs_typed_array_object_inc.c:503-505).  Nothing is converted any more, so nothing is called. -/
def fillLoop (F : Fpu) (le : Bool) (V : View) (ty : Ty) (x : Val) : Nat → Nat → State → M State
  | 0, _, s => .ok s
  | n + 1, i, s =>
    if validNat s V i then
      match putElem F le s V ty i x with
      | .error f => .error f
      | .ok s => fillLoop F le V ty x n (i + 1) s
    else fillLoop F le V ty x n (i + 1) s

/-- Elements converted one by one between two places in memory (rjs_typed_array_object_inc.c:1443-1449
and 2522-2529). -/
def convLoop (F : Fpu) (le : Bool) (sk : Nat) (sty : Ty) (tk : Nat) (tty : Ty) : Nat → Nat → Nat → State → M State
  | 0, _, _, s => .ok s
  | n + 1, sp, tp, s =>
    match getAt F s sk sp sty le with
    | .error f => .error f
    | .ok (s, v) =>
      match putAt F s tk tp tty v le with
      | .error f => .error f
      | .ok s => convLoop F le sk sty tk tty n (sp + sty.size) (tp + tty.size) s

/-- The loop of `slice` with different types (rjs_typed_array_object_inc.c:1601-1607). -/
def sliceLoop (F : Fpu) (le : Bool) (V : View) (sty : Ty) (T : View) (tty : Ty) : Nat → Nat → Nat → State → M State
  | 0, _, _, s => .ok s
  | n + 1, i, j, s =>
    if validNat s V i then
      match elemAt F le s V sty i with
      | .error f => .error f
      | .ok (s, v) =>
        if validNat s T j then
          match putElem F le s T tty j v with
          | .error f => .error f
          | .ok s => sliceLoop F le V sty T tty n (i + 1) (j + 1) s
        else sliceLoop F le V sty T tty n (i + 1) (j + 1) s
    else sliceLoop F le V sty T tty n (i + 1) (j + 1) s

/-! ### The operations -/

/-- A call on a typed array which must not be detached (`valid_typed_array`,
rjs_typed_array_object_inc.c:54-66; `validate_integer_typed_array`, rjs_atomics_object_inc.c:43-81,
where the demand for an integer type is left out). -/
def onValid (s : State) (v : Nat) (f : Frame) : M (State × Res) :=
  match typed s v with
  | some (V, _) => if detached s V.buf then .ok (s, .typeError) else push s f
  | none => .ok (s, .bad)

/-- The start of `sort` (rjs_typed_array_object_inc.c:1770-1787). -/
def sortBegin (s : State) (v : Nat) : M (State × Res) :=
  match typed s v with
  | some (V, ty) =>
    if detached s V.buf then .ok (s, .typeError)
    else
      match blockOf s V.buf with
      | .error f => .error f
      | .ok k => push (ref s k) (.sort k V.off V.alen ty.size)
  | none => .ok (s, .bad)

/-- The read of an element (rjs_int_indexed_object_opt.c:96-114). -/
def elemGet (F : Fpu) (le : Bool) (s : State) (v : Nat) (n : Num) : M (State × Res) :=
  match typed s v with
  | some (V, ty) =>
    match validIndex s V n with
    | none => .ok (s, .undef)
    | some i =>
      match elemAt F le s V ty i with
      | .error f => .error f
      | .ok (s, x) => .ok (s, .val x)
  | none => .ok (s, .bad)

/-- The start of `ArrayBuffer.prototype.slice` (rjs_array_buffer_object_inc.c:132-146). -/
def abBegin (s : State) (b : Nat) (hasEnd : Bool) : M (State × Res) :=
  match s.bufs[b]? with
  | some B =>
    if isShared s b then .ok (s, .typeError)
    else if detached s b then .ok (s, .typeError)
    else push s (.abStart b hasEnd B.len)
  | none => .ok (s, .bad)

/-- A call from the program: the part up to the first call back.  That the arguments are objects of
the right kind is checked by the code (TypeError) before anything else; here it is `bad`. -/
def begin (F : Fpu) (le : Bool) (s : State) : Call → M (State × Res)
  -- rjs_data_view_object_inc.c:67-88
  | .dataView b hasLen => if b < s.bufs.length then push s (.dvOff b hasLen) else .ok (s, .bad)
  -- 160-174, 200-216
  | .dvGet v ty little => if (dview s v).isSome then push s (.dvGet v ty little) else .ok (s, .bad)
  | .dvSet v ty little => if (dview s v).isSome then push s (.dvSetIdx v ty little) else .ok (s, .bad)
  -- rjs_typed_array_object_inc.c:2740-2744
  | .taLength ty => push s (.taLen ty)
  -- 2717-2730
  | .taBuffer ty b hasLen => if b < s.bufs.length then push s (.taBufProto ty b hasLen) else .ok (s, .bad)
  | .taTyped ty src => if (typed s src).isSome then push s (.taTyped ty src) else .ok (s, .bad)
  | .elemGet v n => elemGet F le s v n
  -- rjs_int_indexed_object_opt.c:126-147
  | .elemSet v n => if (typed s v).isSome then push s (.elemSet v n) else .ok (s, .bad)
  -- rjs_typed_array_object_inc.c:309-315
  | .copyWithin v hasEnd => onValid s v (.cwTo v hasEnd)
  -- 455-470
  | .fill v hasEnd => onValid s v (.fillVal v hasEnd)
  -- 1514-1519, the source being a typed array
  | .setFrom t src =>
    if (typed s t).isSome && (typed s src).isSome then push s (.setOff t src) else .ok (s, .bad)
  -- 1552-1558
  | .slice v hasEnd => onValid s v (.slStart v hasEnd)
  | .sort v => sortBegin s v
  | .abSlice b hasEnd => abBegin s b hasEnd
  -- rjs_atomics_object_inc.c:785-788, 970-973, 123-126
  | .atLoad v => onValid s v (.atLoad v)
  | .atStore v => onValid s v (.atStoreIdx v)
  | .atRmw v op => onValid s v (.atIdx v op)

/-- `atomic_fetch_add` and so on, on the number of the element. -/
def Rmw.apply (op : Rmw) (w : Nat) (old x : Nat) : Nat :=
  match op with
  | .add => (old + x) % 2 ^ w
  | .sub => (old + (2 ^ w - x % 2 ^ w)) % 2 ^ w
  | .and => old &&& x % 2 ^ w
  | .or => old ||| x % 2 ^ w
  | .xor => old ^^^ x % 2 ^ w
  | .xchg => x % 2 ^ w

/-- The clone of the source if the data block is the same (rjs_typed_array_object_inc.c:1406-1424,
rjs_array_buffer_opt.c:735-761): the block and the position to read from. -/
def cloneIf (s : State) (S : View) (tk sk : Nat) : M (State × Nat × Nat) :=
  if tk = sk then
    match copy (alloc s S.blen false) s.blocks.length 0 sk S.off S.blen with
    | .error f => .error f
    | .ok s' => .ok (s', s.blocks.length, 0)
  else .ok (s, sk, S.off)

/-- The transfer (rjs_typed_array_object_inc.c:1429-1450). -/
def transfer (F : Fpu) (le : Bool) (s : State) (sk sp : Nat) (sty : Ty) (tk tp : Nat) (tty : Ty) (n : Nat) : M State :=
  if sty = tty then copy s tk tp sk sp (tty.size * n) else convLoop F le sk sty tk tty n sp tp s

/-- `set_typed_array_from_typed_array` (rjs_typed_array_object_inc.c:1360-1456) with the converted
offset. -/
def setTyped (F : Fpu) (le : Bool) (s : State) (T S : View) (tty sty : Ty) (o : Option Nat) : M (State × Res) :=
  if detached s T.buf then .ok (s, .typeError)
  else if detached s S.buf then .ok (s, .typeError)
  else
    match o with
    | none => .ok (s, .rangeError)      -- infinity
    | some i =>
      if S.alen + i > T.alen then .ok (s, .rangeError)
      else if isBig tty != isBig sty then .ok (s, .typeError)
      else
        match blockOf s T.buf with
        | .error f => .error f
        | .ok tk =>
          match blockOf s S.buf with
          | .error f => .error f
          | .ok sk =>
            match cloneIf s S tk sk with
            | .error f => .error f
            | .ok (s, sk, sp) =>
              match transfer F le s sk sp sty tk (i * tty.size + T.off) tty S.alen with
              | .error f => .error f
              | .ok s => .ok (s, .undef)

/-- `TypedArray.prototype.set` after the conversion (rjs_typed_array_object_inc.c:1522-1528). -/
def setOff (F : Fpu) (le : Bool) (s : State) (t src : Nat) (x : Num) : M (State × Res) :=
  match typed s t with
  | none => .ok (s, .bad)
  | some (T, tty) =>
    match typed s src with
    | none => .ok (s, .bad)
    | some (S, sty) =>
      match ioi x with
      | .ninf => .ok (s, .rangeError)
      | .pinf => setTyped F le s T S tty sty none
      | .fin i => if i < 0 then .ok (s, .rangeError) else setTyped F le s T S tty sty (some i.toNat)

/-- `initialize_typed_array_from_typed_array` (rjs_typed_array_object_inc.c:2474-2542). -/
def initTyped (F : Fpu) (le : Bool) (s : State) (src : Nat) (ty : Ty) : M (State × Res) :=
  match typed s src with
  | none => .ok (s, .bad)
  | some (S, sty) =>
    let s1 := alloc s (ty.size * S.alen) false
    if detached s1 S.buf then .ok (s1, .typeError)
    else if isBig ty != isBig sty then .ok (s1, .typeError)
    else
      match blockOf s1 S.buf with
      | .error f => .error f
      | .ok sk =>
        match transfer F le s1 sk S.off sty s.blocks.length 0 ty S.alen with
        | .error f => .error f
        | .ok s2 => addView s2 ⟨s.bufs.length, 0, ty.size * S.alen, S.alen, some ty⟩

/-- `initialize_typed_array_from_array_buffer` (rjs_typed_array_object_inc.c:2572-2605) after the
conversions. -/
def initBuf (s : State) (ty : Ty) (b off : Nat) (len : Option Nat) : M (State × Res) :=
  match s.bufs[b]? with
  | some ⟨some _, L⟩ =>
    match len with
    | none =>
      if L % ty.size ≠ 0 then .ok (s, .rangeError)
      else if L < off then .ok (s, .rangeError)
      else addView s ⟨b, off, L - off, (L - off) / ty.size, some ty⟩
    | some n =>
      if off + n * ty.size > L then .ok (s, .rangeError)
      else addView s ⟨b, off, n * ty.size, n * ty.size / ty.size, some ty⟩
  | _ => .ok (s, .typeError)

/-- The offset of the typed array (rjs_typed_array_object_inc.c:2559-2570). -/
def taBufOff (s : State) (ty : Ty) (b : Nat) (hasLen : Bool) (x : Num) : M (State × Res) :=
  match toIndex x with
  | none => .ok (s, .rangeError)
  | some off =>
    if off % ty.size ≠ 0 then .ok (s, .rangeError)
    else if hasLen then push s (.taBufLen ty b off)
    else initBuf s ty b off none

/-- `copyWithin` after the conversions (rjs_typed_array_object_inc.c:347-378). -/
def cwFinish (s : State) (v : Nat) (V : View) (ty : Ty) (dst frm final : Nat) : M (State × Res) :=
  -- `count = RJS_MIN(final - from, len - to)`, negative if `final < from`
  let count := min (final - frm) (V.alen - dst)
  if count > 0 then
    if detached s V.buf then .ok (s, .typeError)
    else
      match blockOf s V.buf with
      | .error f => .error f
      | .ok k =>
        match move s k (V.off + ty.size * dst) k (V.off + ty.size * frm) (ty.size * count) with
        | .error f => .error f
        | .ok s => .ok (s, .view v)
  else .ok (s, .view v)

/-- `fill` after the conversions (rjs_typed_array_object_inc.c:498-508). -/
def fillFinish (F : Fpu) (le : Bool) (s : State) (v : Nat) (V : View) (ty : Ty) (x : Val) (k final : Nat) : M (State × Res) :=
  if detached s V.buf then .ok (s, .typeError)
  else
    match fillLoop F le V ty x (final - k) k s with
    | .error f => .error f
    | .ok s => .ok (s, .view v)

/-- `slice` after the species constructor has returned `t` (rjs_typed_array_object_inc.c:77-86,
587-590, 1585-1627); both data blocks are locked, if they are shared. -/
def slFinish (F : Fpu) (le : Bool) (s : State) (v k final t : Nat) : M (State × Res) :=
  match typed s v with
  | none => .ok (s, .bad)
  | some (V, sty) =>
    match typed s t with
    | none => .ok (s, .typeError)
    | some (T, tty) =>
      let count := final - k
      if detached s T.buf then .ok (s, .typeError)
      else if T.alen < count then .ok (s, .typeError)
      else if isBig sty != isBig tty then .ok (s, .typeError)
      else if count > 0 then
        if detached s V.buf then .ok (s, .typeError)
        else if sty ≠ tty then
          match sliceLoop F le V sty T tty count k 0 s with
          | .error f => .error f
          | .ok s => .ok (s, .view t)
        else
          match blockOf s T.buf with
          | .error f => .error f
          | .ok tk =>
            match blockOf s V.buf with
            | .error f => .error f
            | .ok sk =>
              if tk = sk ∧ isShared s V.buf then .error .deadlock
              else
                match copy s tk T.off sk (V.off + k * sty.size) (count * sty.size) with
                | .error f => .error f
                | .ok s => .ok (s, .view t)
      else .ok (s, .view t)

/-- `ArrayBuffer.prototype.slice` after the species constructor has returned `nb`
(rjs_array_buffer_object_inc.c:183-213). -/
def abFinish (s : State) (b first n nb : Nat) : M (State × Res) :=
  match s.bufs[nb]? with
  | some NB =>
    if isShared s nb then .ok (s, .typeError)
    else if detached s nb then .ok (s, .typeError)
    else if nb = b then .ok (s, .typeError)
    else if NB.len < n then .ok (s, .typeError)
    else if detached s b then .ok (s, .typeError)
    else
      match blockOf s nb with
      | .error f => .error f
      | .ok tk =>
        match blockOf s b with
        | .error f => .error f
        | .ok sk =>
          match copy s tk 0 sk first n with
          | .error f => .error f
          | .ok s => .ok (s, .buf nb)
  | none => .ok (s, .bad)

/-- The offset of the data view (rjs_data_view_object_inc.c:88-115). -/
def dvOff (s : State) (b : Nat) (hasLen : Bool) (x : Num) : M (State × Res) :=
  match toIndex x with
  | none => .ok (s, .rangeError)
  | some off =>
    match s.bufs[b]? with
    | some ⟨some _, L⟩ =>
      if off > L then .ok (s, .rangeError)
      else if hasLen then push s (.dvLen b off L)
      else push s (.dvProto b off (L - off))
    | _ => .ok (s, .typeError)
def dvLen (s : State) (b off cap : Nat) (x : Num) : M (State × Res) :=
  match toIndex x with
  | none => .ok (s, .rangeError)
  | some n => if off + n > cap then .ok (s, .rangeError) else push s (.dvProto b off n)
/-- The new data view (rjs_data_view_object_inc.c:117-134). -/
def dvProto (s : State) (b off n : Nat) : M (State × Res) :=
  if detached s b then .ok (s, .typeError) else addView s ⟨b, off, n, 0, none⟩

/-- `get_view_value` after the conversion (rjs_data_view_object_inc.c:177-193). -/
def dvGet (F : Fpu) (s : State) (v : Nat) (ty : Ty) (little : Bool) (x : Num) : M (State × Res) :=
  match dview s v with
  | none => .ok (s, .bad)
  | some V =>
    match toIndex x with
    | none => .ok (s, .rangeError)
    | some i =>
      if detached s V.buf then .ok (s, .typeError)
      else if i + ty.size > V.blen then .ok (s, .rangeError)
      else
        match blockOf s V.buf with
        | .error f => .error f
        | .ok k =>
          match getAt F s k (i + V.off) ty little with
          | .error f => .error f
          | .ok (s, x) => .ok (s, .val x)

/-- `set_view_value` after the conversions (rjs_data_view_object_inc.c:216-250). -/
def dvSetVal (F : Fpu) (s : State) (v : Nat) (ty : Ty) (little : Bool) (i : Nat) (x : Val) : M (State × Res) :=
  match dview s v with
  | none => .ok (s, .bad)
  | some V =>
    if detached s V.buf then .ok (s, .typeError)
    else if i + ty.size > V.blen then .ok (s, .rangeError)
    else
      match blockOf s V.buf with
      | .error f => .error f
      | .ok k =>
        match putAt F s k (i + V.off) ty x little with
        | .error f => .error f
        | .ok s => .ok (s, .undef)

/-- The write of an element after the conversion (rjs_int_indexed_object_opt.c:149-159). -/
def elemSet (F : Fpu) (le : Bool) (s : State) (V : View) (ty : Ty) (n : Num) (x : Val) : M (State × Res) :=
  match validIndex s V n with
  | none => .ok (s, .undef)
  | some i =>
    match putElem F le s V ty i x with
    | .error f => .error f
    | .ok s => .ok (s, .undef)

/-- `Atomics.load` after the conversion (rjs_atomics_object_inc.c:85-105, 791-798). -/
def atLoad (F : Fpu) (le : Bool) (s : State) (V : View) (ty : Ty) (x : Num) : M (State × Res) :=
  match toIndex x with
  | none => .ok (s, .rangeError)
  | some i =>
    if i ≥ V.alen then .ok (s, .rangeError)
    else if detached s V.buf then .ok (s, .typeError)
    else
      match elemAt F le s V ty i with
      | .error f => .error f
      | .ok (s, x) => .ok (s, .val x)

/-- `Atomics.store` (rjs_atomics_object_inc.c:976-998). -/
def atStoreIdx (s : State) (v : Nat) (V : View) (x : Num) : M (State × Res) :=
  match toIndex x with
  | none => .ok (s, .rangeError)
  | some i => if i ≥ V.alen then .ok (s, .rangeError) else push s (.atStoreVal v i)
def atStoreVal (F : Fpu) (le : Bool) (s : State) (V : View) (ty : Ty) (i : Nat) (x : Val) : M (State × Res) :=
  if detached s V.buf then .ok (s, .typeError)
  else
    match putElem F le s V ty i x with
    | .error f => .error f
    | .ok s => .ok (s, .val x)

/-- `Atomics.add` and so on: the pointer is computed before the value is converted
(rjs_atomics_object_inc.c:126-131). -/
def atIdx (s : State) (V : View) (ty : Ty) (op : Rmw) (x : Num) : M (State × Res) :=
  match toIndex x with
  | none => .ok (s, .rangeError)
  | some i =>
    if i ≥ V.alen then .ok (s, .rangeError)
    else
      match blockOf s V.buf with
      | .error f => .error f
      | .ok k => push s (.atVal ty op k (V.off + ty.size * i))

/-- The read and the write (rjs_atomics_object_inc.c:133-256). -/
def atVal (F : Fpu) (le : Bool) (s : State) (ty : Ty) (op : Rmw) (k pos : Nat) (x : Val) : M (State × Res) :=
  match Raw.store F ty x with
  | none => .error .cast
  | some z =>
    match rd s k pos ty.size with
    | .error f => .error f
    | .ok (s, b) =>
      match Raw.get F b 0 ty le with
      | none => .error .cast
      | some old =>
        let n := if le then Raw.orLittle 0 b else Raw.orBig b
        match wr s k pos (Raw.bytes le ty.size (op.apply (8 * ty.size) n (z % 2 ^ (8 * ty.size)).toNat : Nat)) with
        | .error f => .error f
        | .ok s => .ok (s, .val old)

/-- The sort goes on after a call of the comparator with some access to an element, ends, or ends
with an exception (rjs_typed_array_object_inc.c:1786-1789). -/
def sortGo (s : State) (k off n es : Nat) (r : Ret) : M (State × Res) :=
  match r with
  | .swap i b =>
    if i < n ∧ b.length = es then
      match rd s k (off + es * i) es with
      | .error f => .error f
      | .ok (s, _) =>
        match wr s k (off + es * i) b with
        | .error f => .error f
        | .ok s => push s (.sort k off n es)
    else .ok ({ s with frames := .sort k off n es :: s.frames }, .bad)
  | .done => .ok (unref s k, .undef)
  | .thrown => .ok (unref s k, .thrown)
  | _ => .ok ({ s with frames := .sort k off n es :: s.frames }, .bad)

/-- The operation waits for a number, a value, ...; an exception ends it; anything else there is
not. -/
def wrong (s : State) (f : Frame) (r : Ret) : M (State × Res) :=
  if r = .thrown then .ok (s, .thrown) else .ok ({ s with frames := f :: s.frames }, .bad)
def onNum (s : State) (f : Frame) (r : Ret) (g : Num → M (State × Res)) : M (State × Res) :=
  match r with
  | .num x => g x
  | r => wrong s f r
def onDone (s : State) (f : Frame) (r : Ret) (g : M (State × Res)) : M (State × Res) :=
  match r with
  | .done => g
  | r => wrong s f r
/-- With the typed array. -/
def onTyped (s : State) (v : Nat) (g : View → Ty → M (State × Res)) : M (State × Res) :=
  match typed s v with
  | some (V, ty) => g V ty
  | none => .ok (s, .bad)
/-- A value, which is converted as the element type demands. -/
def onVal (s : State) (f : Frame) (ty : Ty) (r : Ret) (g : Val → M (State × Res)) : M (State × Res) :=
  match r with
  | .val x => if fitsTy ty x then g x else wrong s f r
  | r => wrong s f r

/-- The program returns `r` to the operation with the frame `f`, which is already removed. -/
def resume (F : Fpu) (le : Bool) (s : State) (f : Frame) (r : Ret) : M (State × Res) :=
  match f with
  | .sort k off n es => sortGo s k off n es r
  | .dvOff b hasLen => onNum s f r (dvOff s b hasLen)
  | .dvLen b off cap => onNum s f r (dvLen s b off cap)
  | .dvProto b off n => onDone s f r (dvProto s b off n)
  | .dvGet v ty little => onNum s f r (dvGet F s v ty little)
  | .dvSetIdx v ty little => onNum s f r fun x =>
    match toIndex x with
    | none => .ok (s, .rangeError)
    | some i => push s (.dvSetVal v ty little i)
  | .dvSetVal v ty little i => onVal s f ty r (dvSetVal F s v ty little i)
  -- rjs_typed_array_object_inc.c:2743-2746
  | .taLen ty => onNum s f r fun x =>
    match toIndex x with
    | none => .ok (s, .rangeError)
    | some n => push s (.taLenProto ty n)
  -- 2451-2464
  | .taLenProto ty n => onDone s f r <|
    addView (alloc s (ty.size * n) false) ⟨s.bufs.length, 0, ty.size * n, n, some ty⟩
  -- 2720-2729
  | .taBufProto ty b hasLen => onDone s f r (push s (.taBufOff ty b hasLen))
  | .taBufOff ty b hasLen => onNum s f r (taBufOff s ty b hasLen)
  | .taBufLen ty b off => onNum s f r fun x =>
    match toIndex x with
    | none => .ok (s, .rangeError)
    | some n => initBuf s ty b off (some n)
  | .taTyped ty src => onDone s f r (initTyped F le s src ty)
  | .elemSet v n => onTyped s v fun V ty => onVal s f ty r (elemSet F le s V ty n)
  -- 315-345
  | .cwTo v hasEnd => onTyped s v fun V _ => onNum s f r fun x => push s (.cwFrom v hasEnd (rel V.alen x))
  | .cwFrom v hasEnd dst => onTyped s v fun V ty => onNum s f r fun x =>
    if hasEnd then push s (.cwEnd v dst (rel V.alen x)) else cwFinish s v V ty dst (rel V.alen x) V.alen
  | .cwEnd v dst frm => onTyped s v fun V ty => onNum s f r fun x => cwFinish s v V ty dst frm (rel V.alen x)
  -- 461-496
  | .fillVal v hasEnd => onTyped s v fun _ ty => onVal s f ty r fun x => push s (.fillStart v hasEnd x)
  | .fillStart v hasEnd x => onTyped s v fun V ty => onNum s f r fun y =>
    if hasEnd then push s (.fillEnd v x (rel V.alen y)) else fillFinish F le s v V ty x (rel V.alen y) V.alen
  | .fillEnd v x k => onTyped s v fun V ty => onNum s f r fun y => fillFinish F le s v V ty x k (rel V.alen y)
  | .setOff t src => onNum s f r (setOff F le s t src)
  -- 1558-1583
  | .slStart v hasEnd => onTyped s v fun V _ => onNum s f r fun x =>
    if hasEnd then push s (.slEnd v (rel V.alen x)) else push s (.slSpecies v (rel V.alen x) V.alen)
  | .slEnd v k => onTyped s v fun V _ => onNum s f r fun x => push s (.slSpecies v k (rel V.alen x))
  | .slSpecies v k final =>
    match r with
    | .view t => slFinish F le s v k final t
    | .done => .ok (s, .typeError)
    | r => wrong s f r
  -- rjs_array_buffer_object_inc.c:146-181
  | .abStart b hasEnd len => onNum s f r fun x =>
    if hasEnd then push s (.abEnd b len (rel len x)) else push s (.abSpecies b (rel len x) (len - rel len x))
  | .abEnd b len first => onNum s f r fun x => push s (.abSpecies b first (rel len x - first))
  | .abSpecies b first n =>
    match r with
    | .buf nb => abFinish s b first n nb
    | .done => .ok (s, .typeError)
    | r => wrong s f r
  | .atLoad v => onTyped s v fun V ty => onNum s f r (atLoad F le s V ty)
  | .atStoreIdx v => onTyped s v fun V _ => onNum s f r (atStoreIdx s v V)
  | .atStoreVal v i => onTyped s v fun V ty => onVal s f ty r (atStoreVal F le s V ty i)
  | .atIdx v op => onTyped s v fun V ty => onNum s f r (atIdx s V ty op)
  | .atVal ty op k pos => onVal s f ty r (atVal F le s ty op k pos)

/-- One event. -/
def step (F : Fpu) (le : Bool) (s : State) (e : Ev) : M (State × Res) :=
  let s := { s with log := [] }
  match e with
  | .newBuf len shared => .ok (alloc s len shared, .buf s.bufs.length)
  -- rjs_array_buffer_opt.c:241-242
  | .alias b =>
    match s.bufs[b]? with
    | some ⟨some k, len⟩ =>
      if isShared s b then .ok ({ ref s k with bufs := s.bufs ++ [⟨some k, len⟩] }, .buf s.bufs.length)
      else .ok (s, .bad)
    | _ => .ok (s, .bad)
  | .detach b => .ok (detach s b, .undef)
  | .call c => begin F le s c
  | .ret r =>
    match s.frames with
    | [] => .ok (s, .bad)
    | f :: fs => resume F le { s with frames := fs } f r

/-- A whole execution. -/
def run (F : Fpu) (le : Bool) : State → List Ev → M State
  | s, [] => .ok s
  | s, e :: es =>
    match step F le s e with
    | .error f => .error f
    | .ok (s, _) => run F le s es

end Verif.Buffer
