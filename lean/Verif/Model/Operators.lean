import Verif.Spec.BigInt
import Verif.Model.NumConv
import Verif.Model.Str
/-
Model of the operators on arbitrary values: conversions to primitive values, numbers and strings
(`/repo/include/ratjs/rjs_operation.h`, `/repo/src/lib/rjs_operation.c`,
`/repo/src/lib/rjs_object.c`), equality, comparison and the choice between the operators of
numbers, big integers and strings (`/repo/src/lib/rjs_bc_call.c`), and the comparison of a big
integer with a number (`/repo/src/lib/rjs_big_int_internal_opt.c`).

Everything that runs JavaScript code (reading a property, calling a function) is a parameter
(`World`) which may change a state `σ` in any way and may throw.  The conversions between strings
and numbers and the arithmetic of two numbers or two big integers are parameters as well (they are
modelled elsewhere).  Memory never runs out.
-/
namespace Verif.Operators
open Verif.NumConv (Num)
open Verif.BigInt (BI base word)

/-- A number of the machine: a significand of at most 53 bits.  (The bounds of the exponent play
no role.) -/
def IsDouble : Num → Prop
  | .fin _ m _ => m < 2 ^ 53
  | _ => True

instance (n : Num) : Decidable (IsDouble n) := by
  unfold IsDouble; cases n <;> infer_instance

/-- `RJS_Number`. -/
abbrev Dbl := { n : Num // IsDouble n }

/-- A stored big integer (they are canonical: C15-C21). -/
abbrev Big := { x : BI // x.WF }

/-- A string value: an index string (`RJS_VALUE_TAG_INDEX_STRING`, rjs_value.h:313-318) or a string
of the heap, given by its code units. -/
inductive SV where
  | idx (n : Fin (2 ^ 32))
  | units (l : List Nat)
deriving DecidableEq

/-- The code units (`rjs_index_string_normalize`, rjs_string.c:1379-1391, for an index string). -/
def SV.chars : SV → List Nat
  | .idx n => Str.decimal n.val
  | .units l => l

/-- A value; symbols and objects are named by their address. -/
inductive V where
  | undef
  | null
  | bool (b : Bool)
  | num (n : Dbl)
  | str (s : SV)
  | sym (i : Nat)
  | big (x : Big)
  | obj (i : Nat)

/-- `RJS_ValueType` (rjs_value.h). -/
inductive Ty where
  | undef | null | bool | num | str | sym | big | obj
deriving DecidableEq

/-- `rjs_value_get_type` (rjs_value.h). -/
def V.ty : V → Ty
  | .undef => .undef
  | .null => .null
  | .bool _ => .bool
  | .num _ => .num
  | .str _ => .str
  | .sym _ => .sym
  | .big _ => .big
  | .obj _ => .obj

/-- An exception: an error of the engine, or a value thrown by a program.  `limit` is not an
exception of the engine: it marks a case of the model that must not occur. -/
inductive Exc where
  | typeError
  | rangeError
  | user (v : V)
  | limit

/-- A computation which may change the state and throw. -/
abbrev M (σ α : Type) := σ → Except Exc α × σ

/-- No effect. -/
def ret {σ α : Type} (a : α) : M σ α := fun s => (.ok a, s)

/-- `r = RJS_ERR` with a pending exception. -/
def throw' {σ α : Type} (e : Exc) : M σ α := fun s => (.error e, s)

/-- `if ((r = f(...)) == RJS_ERR) goto end;`. -/
def M.andThen {σ α β : Type} (m : M σ α) (f : α → M σ β) : M σ β := fun s =>
  match m s with
  | (.ok a, s') => f a s'
  | (.error e, s') => (.error e, s')

/-- The property names used by the conversions. -/
inductive Key where
  | toPrimitive
  | valueOf
  | toString
deriving DecidableEq

/-- The arithmetic operators which only take numeric operands (`NUMERIC_BINARY_OP`,
rjs_bc_call.c:537-547). -/
inductive NOp where
  | sub | mul | div | rem | exp | shl | sshr | ushr | band | bxor | bor
deriving DecidableEq

/-- Unary operators on a numeric operand. -/
inductive UOp where
  | neg | bnot | inc | dec
deriving DecidableEq

/-- What the operators need from the rest of the engine. -/
structure World (σ : Type) where
  /-- `rjs_get`, `rjs_get_v` of an object. -/
  get : Nat → Key → M σ V
  /-- `rjs_is_callable` of an object. -/
  callable : Nat → Bool
  /-- `rjs_call`: function, `this`, arguments. -/
  call : Nat → V → List V → M σ V
  /-- `rjs_string_to_number`. -/
  strNum : List Nat → Dbl
  /-- `rjs_string_to_big_int`; `none`: the result is undefined. -/
  strBig : List Nat → Option Big
  /-- `rjs_number_to_string`. -/
  numStr : Dbl → List Nat
  /-- `rjs_big_int_to_string` in radix ten. -/
  bigStr : Big → List Nat
  /-- `rjs_number_add`. -/
  nadd : Dbl → Dbl → Dbl
  /-- `rjs_big_int_add`. -/
  badd : Big → Big → Big
  /-- The other operators of numbers. -/
  nbin : NOp → Dbl → Dbl → Dbl
  /-- The other operators of big integers; they may throw (division by zero ...). -/
  bbin : NOp → Big → Big → Except Exc Big
  nun : UOp → Dbl → Dbl
  bun : UOp → Big → Big

/-- The number of a small integer. -/
def nat (n : Nat) (h : n < 2 ^ 53 := by decide) : Dbl := ⟨.fin false n 0, h⟩

/-- The number `NAN`. -/
def nan : Dbl := ⟨.nan, trivial⟩

/-! ### Comparison of numbers and big integers -/

/-- `RJS_CompareResult`. -/
inductive Cmp where
  | equal | less | greater | undefined
deriving DecidableEq

/-- A signed integer. -/
def sgn (neg : Bool) (n : Nat) : Int := if neg then -(n : Int) else n

/-- `n1 < n2` for doubles (C11 6.5.8; exact, false if one is NaN). -/
def dlt : Num → Num → Bool
  | .nan, _ => false
  | _, .nan => false
  | .inf true, .inf true => false
  | .inf true, _ => true
  | _, .inf true => false
  | .inf false, _ => false
  | _, .inf false => true
  | .fin s1 m1 e1, .fin s2 m2 e2 =>
    decide (sgn s1 (NumConv.num m1 e1) * NumConv.den e2 < sgn s2 (NumConv.num m2 e2) * NumConv.den e1)

/-- `n1 == n2` for doubles (C11 6.5.9). -/
def deq : Num → Num → Bool
  | .nan, _ => false
  | _, .nan => false
  | .inf a, .inf b => a == b
  | .inf _, _ => false
  | _, .inf _ => false
  | .fin s1 m1 e1, .fin s2 m2 e2 =>
    decide (sgn s1 (NumConv.num m1 e1) * NumConv.den e2 = sgn s2 (NumConv.num m2 e2) * NumConv.den e1)

/-- `isnan`. -/
def isNan : Num → Bool
  | .nan => true
  | _ => false

/-- `rjs_number_compare` (rjs_number.h:263-278). -/
def numCmp (a b : Num) : Cmp :=
  if isNan a || isNan b then .undefined
  else if deq a b then .equal
  else if dlt a b then .less
  else .greater

/-- The last loop of `bi_set_number` (rjs_big_int_internal_opt.c:222-232): store limbs while
`e >= 0`. -/
def lows (m : Nat) (e : Int) : List Nat :=
  if 0 ≤ e then m % base :: lows (m / base) (e - 32) else []
termination_by (e + 32).toNat

/-- The middle of `bi_set_number` (209-220).  `m` is a `uint64_t`, `v` an `uint32_t`. -/
def mids (m : Nat) (e : Int) : List Nat :=
  if e > 52 then
    (m * 2 ^ (e - 52).toNat % word % base) :: lows (m / 2 ^ (32 - (e - 52)).toNat) (e - 32)
  else if e < 52 then lows (m / 2 ^ (52 - e).toNat) e
  else lows m e

/-- The first loop of `bi_set_number` (200-207) and what follows. -/
def highs (m : Nat) (e : Int) : List Nat :=
  if e ≥ 84 then 0 :: highs m (e - 32) else mids m e
termination_by e.toNat

/-- `bi_set_number` (183-240) on the double whose absolute value is the integer `v`: its exponent is
the position of the top bit, its significand has the top bit at position 52. -/
def setNumber (neg : Bool) (v : Nat) : BI :=
  if v = 0 then ⟨false, []⟩
  else
    let e := Nat.log2 v
    let m := if e ≤ 52 then v * 2 ^ (52 - e) else v / 2 ^ (e - 52)
    (⟨neg, highs m e⟩ : BI).strip

/-- The result of `bi_compare` as a `RJS_CompareResult`. -/
def ofBI : BigInt.Cmp → Cmp
  | .less => .less
  | .equal => .equal
  | .greater => .greater

/-- `rjs_big_int_compare_number` (2189-2225). -/
def compareNumber (x : BI) : Num → Cmp
  | .nan => .undefined
  | .inf true => .greater
  | .inf false => .less
  | .fin neg m e =>
    let t := NumConv.num m e / NumConv.den e
    match BigInt.compare x (setNumber neg t) with
    | .less => .less
    | .greater => .greater
    | .equal =>
      if dlt (.fin neg t 0) (.fin neg m e) then .less
      else if dlt (.fin neg m e) (.fin neg t 0) then .greater
      else .equal

/-! ### Conversions -/

variable {σ : Type}

/-- `rjs_get_method` (rjs_operation.h:1249-1269) of an object: nothing, or the function. -/
def getMethod (W : World σ) (o : Nat) (k : Key) : M σ (Option Nat) :=
  (W.get o k).andThen fun
    | .undef => ret none
    | .null => ret none
    | .obj f => if W.callable f then ret (some f) else throw' .typeError
    | _ => throw' .typeError

/-- The hint of `rjs_to_primitive`: the type argument, `-1` for none. -/
inductive Hint where
  | none | number | string
deriving DecidableEq

/-- The code units of an ASCII string. -/
def ascii (s : String) : List Nat := s.toList.map Char.toNat

/-- The hint given to a `@@toPrimitive` method (rjs_object.c:1475-1485). -/
def Hint.value : Hint → V
  | .string => .str (.units (ascii "string"))
  | .number => .str (.units (ascii "number"))
  | .none => .str (.units (ascii "default"))

/-- The loop of `rjs_ordinary_to_primitive` (rjs_object.c:1431-1448). -/
def ordLoop (W : World σ) (o : Nat) : List Key → M σ V
  | [] => throw' .typeError
  | k :: ks =>
    (W.get o k).andThen fun
      | .obj f =>
        if W.callable f then
          (W.call f (.obj o) []).andThen fun
            | .obj _ => ordLoop W o ks
            | v => ret v
        else ordLoop W o ks
      | _ => ordLoop W o ks

/-- `rjs_ordinary_to_primitive` (rjs_object.c:1415-1452). -/
def ordToPrim (W : World σ) (o : Nat) (h : Hint) : M σ V :=
  if h = .string then ordLoop W o [.toString, .valueOf] else ordLoop W o [.valueOf, .toString]

/-- `rjs_object_to_primitive` (rjs_object.c:1464-1500). -/
def objToPrim (W : World σ) (o : Nat) (h : Hint) : M σ V :=
  (getMethod W o .toPrimitive).andThen fun
    | some f =>
      (W.call f (.obj o) [h.value]).andThen fun
        | .obj _ => throw' .typeError
        | v => ret v
    | none => ordToPrim W o h

/-- `rjs_to_primitive` (rjs_operation.h:480-492). -/
def toPrim (W : World σ) (h : Hint) : V → M σ V
  | .obj o => objToPrim W o h
  | v => ret v

/-- The number of a string value in `rjs_to_number` (rjs_operation.h:640-645); the index is an
`uint32_t`. -/
def strToNum (W : World σ) : SV → Dbl
  | .idx n => ⟨.fin false n.val 0, Nat.lt_trans n.isLt (by decide)⟩
  | .units l => W.strNum l

/-- `rjs_to_number` (rjs_operation.h:623-661) on a value which is not an object. -/
def toNumberP (W : World σ) : V → M σ Dbl
  | .undef => ret nan
  | .null => ret (nat 0)
  | .bool b => ret (if b then nat 1 else nat 0)
  | .num n => ret n
  | .str s => ret (strToNum W s)
  | .sym _ => throw' .typeError
  | .big _ => throw' .typeError
  | .obj _ => throw' .limit

/-- `rjs_to_number`, with `rjs_object_to_number` (rjs_object.c:1511-1524). -/
def toNumber (W : World σ) : V → M σ Dbl
  | .obj o => (objToPrim W o .number).andThen (toNumberP W)
  | v => toNumberP W v

/-- `rjs_to_numeric` (rjs_operation.h:672-693). -/
def toNumeric (W : World σ) (v : V) : M σ V :=
  (toPrim W .number v).andThen fun
    | .big x => ret (.big x)
    | p => (toNumber W p).andThen fun n => ret (.num n)

/-- `rjs_to_string_non_string` (rjs_operation.c:114-154) on a value which is not an object, with the
test of `rjs_to_string` (rjs_operation.h:562-574). -/
def toStringP (W : World σ) : V → M σ SV
  | .undef => ret (.units (ascii "undefined"))
  | .null => ret (.units (ascii "null"))
  | .bool true => ret (.units (ascii "true"))
  | .bool false => ret (.units (ascii "false"))
  | .num n => ret (.units (W.numStr n))
  | .str s => ret s
  | .sym _ => throw' .typeError
  | .big x => ret (.units (W.bigStr x))
  | .obj _ => throw' .limit

/-- `rjs_to_string`. -/
def toStr (W : World σ) : V → M σ SV
  | .obj o => (objToPrim W o .string).andThen (toStringP W)
  | v => toStringP W v

/-- `rjs_to_property_key` (rjs_operation.h:596-612). -/
def toKey (W : World σ) (v : V) : M σ V :=
  (toPrim W .string v).andThen fun
    | .sym i => ret (.sym i)
    | p => (toStr W p).andThen fun s => ret (.str s)

/-- `rjs_to_boolean` (rjs_operation.h:426-468). -/
def toBool : V → Bool
  | .undef => false
  | .null => false
  | .bool b => b
  | .num n => !(deq n.1 (.fin false 0 0) || isNan n.1)
  | .str (.idx _) => true
  | .str (.units l) => l.length != 0
  | .sym _ => true
  | .big x => !x.1.isZero
  | .obj _ => true

/-! ### Equality -/

/-- `rjs_string_equal` (rjs_string.c:938-949); by content, see `Intern`. -/
def strEq : SV → SV → Bool
  | .idx a, .idx b => a == b
  | a, b => a.chars == b.chars

/-- `rjs_same_value_non_numeric` (rjs_operation.h:266-293), on two values of the same type. -/
def sameNonNumeric : V → V → Bool
  | .undef, _ => true
  | .null, _ => true
  | .str a, .str b => strEq a b
  | .bool a, .bool b => a == b
  | .sym a, .sym b => a == b
  | .obj a, .obj b => a == b
  | _, _ => false

/-- `signbit`; for a NaN it is not used. -/
def signbit : Num → Bool
  | .nan => false
  | .inf s => s
  | .fin s _ _ => s

/-- `rjs_number_same_value` (rjs_operation.h:302-314). -/
def numSame (a b : Num) : Bool :=
  if isNan a && isNan b then true
  else if signbit a != signbit b then false
  else deq a b

/-- `rjs_number_same_value_0` (rjs_operation.h:323-332). -/
def numSame0 (a b : Num) : Bool :=
  if isNan a && isNan b then true else deq a b

/-- `rjs_same_value` (rjs_operation.h:368-387). -/
def sameValue (a b : V) : Bool :=
  if a.ty ≠ b.ty then false
  else
    match a, b with
    | .num x, .num y => numSame x.1 y.1
    | .big x, .big y => BigInt.sameValue x.1 y.1
    | a, b => sameNonNumeric a b

/-- `rjs_same_value_0` (rjs_operation.h:398-417). -/
def sameValue0 (a b : V) : Bool :=
  if a.ty ≠ b.ty then false
  else
    match a, b with
    | .num x, .num y => numSame0 x.1 y.1
    | .big x, .big y => BigInt.sameValue x.1 y.1
    | a, b => sameNonNumeric a b

/-- `rjs_is_strictly_equal` (rjs_operation.c:1482-1496). -/
def strictEq (a b : V) : Bool :=
  if a.ty ≠ b.ty then false
  else
    match a, b with
    | .num x, .num y => numCmp x.1 y.1 == .equal
    | .big x, .big y => BigInt.compare x.1 y.1 == .equal
    | a, b => sameNonNumeric a b

/-- The types for which an object on the other side is converted (rjs_operation.c:1417-1448). -/
def convTy : Ty → Bool
  | .str => true
  | .num => true
  | .sym => true
  | .big => true
  | _ => false

/-- The body of `rjs_is_loosely_equal` (rjs_operation.c:1337-1471); `rec` is the call of
itself. -/
def looseStep (W : World σ) (rec : V → V → M σ Bool) (a b : V) : M σ Bool :=
  if a.ty = b.ty then ret (strictEq a b)
  else if a.ty = .null ∧ b.ty = .undef then ret true
  else if b.ty = .null ∧ a.ty = .undef then ret true
  else if a.ty = .num ∧ b.ty = .str then
    (toNumber W b).andThen fun n => rec a (.num n)
  else if a.ty = .str ∧ b.ty = .num then
    (toNumber W a).andThen fun n => rec (.num n) b
  else
    match a, b with
    | .big x, .str s =>
      match W.strBig s.chars with
      | none => ret false
      | some y => rec (.big x) (.big y)
    | .str s, .big x => rec (.big x) (.str s)
    | a, b =>
      if a.ty = .bool then
        (toNumber W a).andThen fun n => rec (.num n) b
      else if b.ty = .bool then
        (toNumber W b).andThen fun n => rec a (.num n)
      else if convTy a.ty ∧ b.ty = .obj then
        (toPrim W .none b).andThen fun p => rec a p
      else if convTy b.ty ∧ a.ty = .obj then
        (toPrim W .none a).andThen fun p => rec p b
      else
        match a, b with
        | .big x, .num n => ret (compareNumber x.1 n.1 == .equal)
        | .num n, .big x => ret (compareNumber x.1 n.1 == .equal)
        | _, _ => ret false

/-- `rjs_is_loosely_equal`.  The recursion of the C code is bounded by fuel; `limit` if it runs
out. -/
def looseEq (W : World σ) : Nat → V → V → M σ Bool
  | 0 => fun _ _ => throw' .limit
  | fuel + 1 => looseStep W (looseEq W fuel)

/-! ### Operators -/

/-- Two numeric values of the same type or a TypeError (rjs_bc_call.c:479-493, 522-533). -/
def numericOp (fn : Dbl → Dbl → Dbl) (fb : Big → Big → Except Exc Big) : V → V → M σ V
  | .big x, .big y =>
    match fb x y with
    | .ok z => ret (.big z)
    | .error e => throw' e
  | .num x, .num y => ret (.num (fn x y))
  | _, _ => throw' .typeError

/-- `do_bc_add` (rjs_bc_call.c:452-497). -/
def add (W : World σ) (a b : V) : M σ V :=
  (toPrim W .none a).andThen fun lp =>
  (toPrim W .none b).andThen fun rp =>
    if lp.ty = .str ∨ rp.ty = .str then
      (toStr W lp).andThen fun ls =>
      (toStr W rp).andThen fun rs =>
        ret (.str (.units (ls.chars ++ rs.chars)))
    else
      (toNumeric W lp).andThen fun ln =>
      (toNumeric W rp).andThen fun rn =>
        numericOp W.nadd (fun x y => .ok (W.badd x y)) ln rn

/-- `do_bc_subtract` and so on (`NUMERIC_BINARY_OP`, rjs_bc_call.c:513-547). -/
def arith (W : World σ) (op : NOp) (a b : V) : M σ V :=
  (toNumeric W a).andThen fun ln =>
  (toNumeric W b).andThen fun rn =>
    numericOp (W.nbin op) (W.bbin op) ln rn

/-- `do_bc_negative`, `do_bc_reverse` (rjs_bc_call.c:275-319); `++` and `--`, for which
`bc_to_numeric` precedes `do_bc_inc` and `do_bc_dec` (rjs_bc_gen.c:1157-1163, 1194-1200,
rjs_bc_call.c:412-440). -/
def unary (W : World σ) (op : UOp) (a : V) : M σ V :=
  (toNumeric W a).andThen fun
    | .big x => ret (.big (W.bun op x))
    | .num n => ret (.num (W.nun op n))
    | _ => throw' .limit

/-- The result of `rjs_string_compare` as a `RJS_CompareResult`. -/
def ofStr : Str.Cmp → Cmp
  | .less => .less
  | .equal => .equal
  | .greater => .greater

/-- Exchange of the operands (rjs_bc_call.c:660-664). -/
def Cmp.swap : Cmp → Cmp
  | .greater => .less
  | .less => .greater
  | c => c

/-- Comparison of the results of `rjs_to_numeric` (rjs_bc_call.c:640-671). -/
def cmpNumeric : V → V → M σ Cmp
  | .big x, .big y => ret (ofBI (BigInt.compare x.1 y.1))
  | .num x, .num y => ret (numCmp x.1 y.1)
  | .num n, .big x => ret (compareNumber x.1 n.1).swap
  | .big x, .num n => ret (compareNumber x.1 n.1)
  | _, _ => throw' .limit

/-- `do_bc_compare` (rjs_bc_call.c:595-676). -/
def compare (W : World σ) (a b : V) : M σ Cmp :=
  (toPrim W .none a).andThen fun p1 =>
  (toPrim W .none b).andThen fun p2 =>
    match p1, p2 with
    | .str x, .str y => ret (ofStr (Str.compare x.chars y.chars))
    | .str x, .big y =>
      match W.strBig x.chars with
      | none => ret .undefined
      | some n => ret (ofBI (BigInt.compare n.1 y.1))
    | .big x, .str y =>
      match W.strBig y.chars with
      | none => ret .undefined
      | some n => ret (ofBI (BigInt.compare x.1 n.1))
    | p1, p2 =>
      (toNumeric W p1).andThen fun n1 =>
      (toNumeric W p2).andThen fun n2 =>
        cmpNumeric n1 n2

/-- The relational operators. -/
inductive Rel where
  | lt | le | gt | ge
deriving DecidableEq

/-- `bc_lt`, `bc_le`, `bc_gt`, `bc_ge` (rjs_bc_call.c:678-696). -/
def Rel.test : Rel → Cmp → Bool
  | .lt, c => c == .less
  | .le, c => c == .less || c == .equal
  | .gt, c => c == .greater
  | .ge, c => c == .greater || c == .equal

def rel (W : World σ) (r : Rel) (a b : V) : M σ Bool :=
  (compare W a b).andThen fun c => ret (r.test c)

end Verif.Operators
