import Verif.Model.Object
import Verif.Model.Str

/-!
Model of the two kinds of objects whose elements are not kept as properties: the objects of strings
(`/repo/src/lib/rjs_primitive_object.c:63-258`) and typed arrays
(`/repo/src/lib/rjs_int_indexed_object_opt.c:54-373`), with the operations of ordinary objects they
fall back on (`/repo/src/lib/rjs_object.c:194-217, 670-701, 706-847, 908-1252`) and
`rjs_canonical_numeric_index_string` (`/repo/src/lib/rjs_string.c:546-591`,
`/repo/src/lib/include/rjs_string.h:103-120`).

Simplified: the properties are a list in the order they were made (how they are kept is in
`Verif.PropStore` and `Verif.Obj`).  The prototypes are ordinary objects which do not change; what a
search in them finds is given by `Lang.up`.  The conversions between numbers and strings are given
(`Verif.StrNum`, `Verif.NumStr`).  The elements of a typed array are the values they are read as
(`Verif.Buffer`); a value assigned is converted by `Lang.conv`, and the user code a conversion runs
may detach the buffer; other things it does are further operations.  A getter or setter called ends
the operation.  The strings with the tag of index strings (`rjs_value_is_index_string`) are the
strings with their digits; the flags `RJS_STRING_FL_NOT_INDEX` and `RJS_STRING_FL_NOT_NUMBER` only
remember a result and are left out.
-/
namespace Verif.Exotic
open Obj (Val P Desc Fields descOf newProp check change noFlags isAcc isData isCompatible)

/-- A property key: a string or a symbol. -/
inductive Key where
  | str (s : List Nat)
  | sym (n : Nat)
deriving DecidableEq

/-- A key after `prop_resolve` (rjs_object.c:194-217). -/
inductive Slot where
  | idx (i : Nat)
  | str (s : List Nat)
  | sym (n : Nat)
deriving DecidableEq

/-- `prop_resolve` (rjs_object.c:194-217). -/
def slot : Key → Slot
  | .str s =>
    match Str.resolve s with
    | .index i => .idx i
    | .name s => .str s
  | .sym n => .sym n

/-- A `double`: `int neg n` is the integer n with its sign (so -0 is `int true 0`), `frac` are the
finite numbers which are not integers, numbered somehow. -/
inductive Num where
  | nan
  | inf (neg : Bool)
  | int (neg : Bool) (n : Nat)
  | frac (q : Nat)
deriving DecidableEq

/-- The property a search in the prototypes finds. -/
inductive Up where
  | none
  | data (v : Val) (w : Bool)
  | acc (g s : Val)
deriving DecidableEq

/-- What is given: the conversions `rjs_to_number` of a string and `rjs_to_string` of a number, the
value of a string of one unit, the conversion of a value to an element (`none`: it throws) with
whether the buffer is detached by it, the prototypes. -/
structure Lang where
  toNum : List Nat → Num
  toStr : Num → List Nat
  char : Nat → Val
  conv : Val → Option Val × Bool
  up : Key → Up
  callable : Val → Bool

/-- What makes the object special: the units of the string, or the elements of the typed array and
whether its buffer is detached.  `array_length` stays when the buffer is detached
(rjs_array_buffer_opt.c:193-209). -/
inductive Body where
  | str (units : List Nat)
  | arr (elems : List Val) (detached : Bool)
deriving DecidableEq

structure St where
  props : List (Slot × P)
  ext : Bool
  body : Body
deriving DecidableEq

/-- The result of [[GetOwnProperty]]; `ub`: an undefined conversion. -/
inductive Own where
  | ub
  | none
  | some (d : Desc)
deriving DecidableEq

/-- `string_get_own_property` (rjs_primitive_object.c:64-102).  `idx = n` (line 92) is undefined when
the number does not fit in 64 bits. -/
def strOwn (L : Lang) (units : List Nat) : Key → Own
  | .sym _ => .none
  | .str s =>
    match L.toNum s with
    | .nan => .none
    | .inf _ => .none
    | .frac _ => .none
    | .int true _ => .none
    | .int false n =>
      if n ≥ 2 ^ 64 then .ub
      else if n ≥ units.length then .none
      else .some { hasV := true, hasW := true, hasE := true, hasC := true, e := true, value := L.char (units.getD n 0) }

/-- The property kept for a resolved key. -/
def find (k : Slot) : List (Slot × P) → Option P
  | [] => none
  | (j, p) :: l => if j = k then some p else find k l

def put (k : Slot) (p : P) : List (Slot × P) → List (Slot × P)
  | [] => []
  | (j, q) :: l => if j = k then (j, p) :: l else (j, q) :: put k p l

def remove (k : Slot) : List (Slot × P) → List (Slot × P)
  | [] => []
  | (j, q) :: l => if j = k then l else (j, q) :: remove k l

/-- `rjs_ordinary_object_op_get_own_property` (rjs_object.c:670-701). -/
def ordOwn (st : St) (k : Key) : Own :=
  match find (slot k) st.props with
  | none => .none
  | some p => .some (descOf p)

/-- `rjs_canonical_numeric_index_string` (include/rjs_string.h:103-120, rjs_string.c:554-591). -/
def canon (L : Lang) (s : List Nat) : Option Num :=
  if s = [45, 48] then some (.int true 0)
  else if L.toStr (L.toNum s) = s then some (L.toNum s)
  else none

/-- The number a key is for a typed array. -/
def numKey (L : Lang) : Key → Option Num
  | .str s => canon L s
  | .sym _ => none

/-- `rjs_is_valid_int_index` (rjs_int_indexed_object_opt.c:64-85). -/
def valid (elems : List Val) (detached : Bool) (n : Num) : Option Nat :=
  if detached then none
  else
    match n with
    | .nan => none
    | .inf _ => none
    | .frac _ => none
    | .int true _ => none
    | .int false n => if n ≥ elems.length then none else some n

/-- `rjs_int_indexed_element_get` (lines 95-115). -/
def elemGet (elems : List Val) (detached : Bool) (n : Num) : Val :=
  match valid elems detached n with
  | none => .undef
  | some i => elems.getD i .undef

/-- `rjs_int_indexed_element_set` (lines 125-163): false if the conversion threw. -/
def elemSet (L : Lang) (elems : List Val) (detached : Bool) (n : Num) (v : Val) : List Val × Bool × Bool :=
  match L.conv v with
  | (r, det) =>
    let detached := detached || det
    match r with
    | none => (elems, detached, false)
    | some x =>
      match valid elems detached n with
      | none => (elems, detached, true)
      | some i => (elems.set i x, detached, true)

/-- [[GetOwnProperty]]: `string_object_op_get_own_property` (rjs_primitive_object.c:104-115),
`int_indexed_object_op_get_own_property` (rjs_int_indexed_object_opt.c:166-189). -/
def getOwn (L : Lang) (st : St) (k : Key) : Own :=
  match st.body with
  | .str u =>
    match ordOwn st k with
    | .none => strOwn L u k
    | r => r
  | .arr el det =>
    match numKey L k with
    | some n =>
      if elemGet el det n = .undef then .none
      else .some { hasV := true, hasW := true, hasE := true, hasC := true, w := true, e := true, c := true,
                   value := elemGet el det n }
    | none => ordOwn st k

/-- What an operation gives. -/
inductive Out where
  | unit
  | desc (d : Option Fields)
  | bool (b : Bool)
  | value (v : Val)
  /-- The getter or setter `f` is called. -/
  | call (f : Val)
  | throw
  | keys (l : List Key)
  /-- The assignment is left to the other object it is made for. -/
  | receiver
  | ub
deriving DecidableEq

/-- `validate_and_apply_property` (rjs_object.c:706-847). -/
def validateAndApply (st : St) (k : Key) (d : Desc) (curr : Option Desc) : St × Out :=
  match curr with
  | none =>
    if !st.ext then (st, .bool false)
    else ({ st with props := st.props ++ [(slot k, newProp d)] }, .bool true)
  | some curr =>
    if noFlags d then (st, .bool true)
    else if !check d curr then (st, .bool false)
    else
      match find (slot k) st.props with
      | some p => ({ st with props := put (slot k) (change p d curr) st.props }, .bool true)
      | none => (st, .ub)

/-- `rjs_ordinary_object_op_define_own_property` (rjs_object.c:908-933): the current property is asked
from the operation of the object. -/
def ordDefine (L : Lang) (st : St) (k : Key) (d : Desc) : St × Out :=
  match getOwn L st k with
  | .ub => (st, .ub)
  | .none => validateAndApply st k d none
  | .some c => validateAndApply st k d (some c)

/-- [[DefineOwnProperty]]: `string_object_op_define_own_property` (rjs_primitive_object.c:117-142),
`int_indexed_object_op_define_own_property` (rjs_int_indexed_object_opt.c:192-222). -/
def define (L : Lang) (st : St) (k : Key) (d : Desc) : St × Out :=
  match st.body with
  | .str u =>
    match strOwn L u k with
    | .ub => (st, .ub)
    | .some old => (st, .bool (isCompatible st.ext d (some old)))
    | .none => ordDefine L st k d
  | .arr el det =>
    match numKey L k with
    | some n =>
      if (valid el det n).isNone then (st, .bool false)
      else if d.hasC && !d.c then (st, .bool false)
      else if d.hasE && !d.e then (st, .bool false)
      else if isAcc d then (st, .bool false)
      else if d.hasW && !d.w then (st, .bool false)
      else if d.hasV then
        match elemSet L el det n d.value with
        | (el', det', true) => ({ st with body := .arr el' det' }, .bool true)
        | (el', det', false) => ({ st with body := .arr el' det' }, .throw)
      else (st, .bool true)
    | none => ordDefine L st k d

/-- `rjs_ordinary_object_op_has_property` (rjs_object.c:945-978). -/
def ordHas (L : Lang) (st : St) (k : Key) : Out :=
  match getOwn L st k with
  | .ub => .ub
  | .some _ => .bool true
  | .none => .bool (L.up k != .none)

/-- `rjs_ordinary_object_op_get` (rjs_object.c:990-1034). -/
def ordGet (L : Lang) (st : St) (k : Key) : Out :=
  match getOwn L st k with
  | .ub => .ub
  | .none =>
    match L.up k with
    | .none => .value .undef
    | .data v _ => .value v
    | .acc g _ => if g = .undef then .value .undef else .call g
  | .some d => if isData d then .value d.value else if d.get = .undef then .value .undef else .call d.get

/-- The end of `rjs_ordinary_object_op_set` for data properties (rjs_object.c:1069-1112), here or in a
prototype.  `self`: the receiver is the object. -/
def setData (L : Lang) (self : Bool) (st : St) (k : Key) (v : Val) (w : Bool) : St × Out :=
  if !w then (st, .bool false)
  else if !self then (st, .receiver)
  else
    match getOwn L st k with
    | .ub => (st, .ub)
    | .some ed =>
      if isAcc ed then (st, .bool false)
      else if !ed.w then (st, .bool false)
      else define L st k { hasV := true, value := v }
    | .none => define L st k { hasV := true, hasW := true, hasE := true, hasC := true, w := true, e := true, c := true, value := v }

/-- `rjs_ordinary_object_op_set` (rjs_object.c:1046-1123). -/
def ordSet (L : Lang) (self : Bool) (st : St) (k : Key) (v : Val) : St × Out :=
  match getOwn L st k with
  | .ub => (st, .ub)
  | .none =>
    match L.up k with
    | .none => setData L self st k v true
    | .data _ w => setData L self st k v w
    | .acc _ s => if s = .undef then (st, .bool false) else (st, .call s)
  | .some d =>
    if isData d then setData L self st k v d.w
    else if d.set = .undef then (st, .bool false) else (st, .call d.set)

/-- `rjs_ordinary_object_op_delete` (rjs_object.c:1133-1162). -/
def ordDelete (L : Lang) (st : St) (k : Key) : St × Out :=
  match getOwn L st k with
  | .ub => (st, .ub)
  | .none => (st, .bool true)
  | .some d =>
    if d.c then ({ st with props := remove (slot k) st.props }, .bool true) else (st, .bool false)

/-- An index in its place. -/
def insert (i : Nat) : List Nat → List Nat
  | [] => [i]
  | j :: l => if i < j then i :: j :: l else j :: insert i l

def idxs : List (Slot × P) → List Nat
  | [] => []
  | (.idx i, _) :: l => insert i (idxs l)
  | _ :: l => idxs l

def strs : List (Slot × P) → List (List Nat)
  | [] => []
  | (.str s, _) :: l => s :: strs l
  | _ :: l => strs l

def syms : List (Slot × P) → List Nat
  | [] => []
  | (.sym n, _) :: l => n :: syms l
  | _ :: l => syms l

/-- `rjs_property_key_list_add_own_keys` (rjs_object.c:1172-1232). -/
def addKeys (props : List (Slot × P)) : List Key :=
  ((idxs props).map fun i => .str (Str.decimal i)) ++ ((strs props).map .str ++ (syms props).map .sym)

/-- The keys of the elements (rjs_primitive_object.c:162-167, rjs_int_indexed_object_opt.c:309-314). -/
def elemKeys (L : Lang) (n : Nat) : List Key := (List.range n).map fun i => .str (L.toStr (.int false i))

/-- [[OwnPropertyKeys]]: `string_object_op_own_property_keys` (rjs_primitive_object.c:145-173),
`int_indexed_object_op_own_property_keys` (rjs_int_indexed_object_opt.c:294-320). -/
def ownKeys (L : Lang) (st : St) : List Key :=
  match st.body with
  | .str u => elemKeys L u.length ++ addKeys st.props
  | .arr el _ => elemKeys L el.length ++ addKeys st.props

/-- What a program does with the object.  `set`: `self`, the receiver is the object itself.  `write`:
the memory of an element changes by another view.  `detach`: the buffer is detached. -/
inductive Op where
  | getOwn (k : Key)
  | define (k : Key) (f : Fields)
  | has (k : Key)
  | get (k : Key)
  | set (self : Bool) (k : Key) (v : Val)
  | delete (k : Key)
  | keys
  | prevent
  | write (i : Nat) (v : Val)
  | detach

/-- [[HasProperty]] (rjs_int_indexed_object_opt.c:225-238). -/
def has (L : Lang) (st : St) (k : Key) : Out :=
  match st.body with
  | .str _ => ordHas L st k
  | .arr el det =>
    match numKey L k with
    | some n => .bool (valid el det n).isSome
    | none => ordHas L st k

/-- [[Get]] (rjs_int_indexed_object_opt.c:241-255). -/
def get (L : Lang) (st : St) (k : Key) : Out :=
  match st.body with
  | .str _ => ordGet L st k
  | .arr el det =>
    match numKey L k with
    | some n => .value (elemGet el det n)
    | none => ordGet L st k

/-- [[Set]] (rjs_int_indexed_object_opt.c:258-272). -/
def set (L : Lang) (self : Bool) (st : St) (k : Key) (v : Val) : St × Out :=
  match st.body with
  | .str _ => ordSet L self st k v
  | .arr el det =>
    match numKey L k with
    | some n =>
      match elemSet L el det n v with
      | (el', det', true) => ({ st with body := .arr el' det' }, .bool true)
      | (el', det', false) => ({ st with body := .arr el' det' }, .throw)
    | none => ordSet L self st k v

/-- [[Delete]] (rjs_int_indexed_object_opt.c:275-291). -/
def delete (L : Lang) (st : St) (k : Key) : St × Out :=
  match st.body with
  | .str _ => ordDelete L st k
  | .arr el det =>
    match numKey L k with
    | some n => (st, .bool (valid el det n).isNone)
    | none => ordDelete L st k

/-- One operation.  A definition is checked first (`rjs_to_property_descriptor`,
rjs_operation.c:253-361). -/
def step (L : Lang) (st : St) : Op → St × Out
  | .getOwn k =>
    (st, match getOwn L st k with
      | .ub => .ub
      | .none => .desc none
      | .some d => .desc (some (Obj.fromDesc d)))
  | .define k f =>
    match Obj.toDesc L.callable f with
    | none => (st, .throw)
    | some d => define L st k d
  | .has k => (st, has L st k)
  | .get k => (st, get L st k)
  | .set self k v => set L self st k v
  | .delete k => delete L st k
  | .keys => (st, .keys (ownKeys L st))
  | .prevent => ({ st with ext := false }, .bool true)
  | .write i v =>
    match st.body with
    | .str _ => (st, .unit)
    | .arr el det =>
      match L.conv v with
      | (some x, _) => ({ st with body := .arr (el.set i x) det }, .unit)
      | (none, _) => (st, .unit)
  | .detach =>
    match st.body with
    | .str _ => (st, .unit)
    | .arr el _ => ({ st with body := .arr el true }, .unit)

def run (L : Lang) : St → List Op → St × List Out
  | st, [] => (st, [])
  | st, op :: ops => ((run L (step L st op).1 ops).1, (step L st op).2 :: (run L (step L st op).1 ops).2)

/-- "length". -/
def lengthKey : Key := .str [108, 101, 110, 103, 116, 104]

/-- `rjs_primitive_object_new` of a string (rjs_primitive_object.c:209-258). -/
def newStr (units : List Nat) : St :=
  { props := [(slot lengthKey, { w := false, e := false, c := false, body := .data (.num units.length) })]
    ext := true, body := .str units }

/-- A typed array of a new buffer (`rjs_int_indexed_object_create`, rjs_int_indexed_object_opt.c:352-373,
and the length set after it). -/
def newArr (elems : List Val) : St := { props := [], ext := true, body := .arr elems false }

end Verif.Exotic
