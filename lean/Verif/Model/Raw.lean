import Verif.Model.NumConv
import Verif.Model.BigInt
import Verif.Model.Value
/-
Model of the access to elements in memory: `rjs_get_value_from_raw` and `rjs_set_value_in_raw`
(`/repo/src/lib/rjs_array_buffer_opt.c`:295-443, 456-656).

Memory is a list of bytes.  `none` is an access outside of the list, or something else undefined in
C.  Shifts of `int` to the left beyond its range (`b[3] << 24`) and conversions to signed types
beyond their range are taken as gcc does them.  A number is given by its 64 bits.
-/
namespace Verif.Raw
open NumConv BigInt
open Value (W)

abbrev Byte := BitVec 8

/-- `RJS_ARRAY_ELEMENT_*` (/repo/include/ratjs/rjs_types.h:687-700). -/
inductive Ty
  | u8 | u8c | i8 | u16 | i16 | u32 | i32 | bu64 | bi64 | f32 | f64
deriving DecidableEq, Repr

/-- `rjs_typed_array_element_size` (/repo/include/ratjs/rjs_array_buffer.h:49-84). -/
def Ty.size : Ty → Nat
  | .u8 | .u8c | .i8 => 1
  | .u16 | .i16 => 2
  | .u32 | .i32 | .f32 => 4
  | .bu64 | .bi64 | .f64 => 8

/-- A number or a big integer. -/
inductive Val
  | num (b : W)
  | big (x : BI)
deriving DecidableEq

/-- The conversions between `double` and `float`, which the machine does. -/
structure Fpu where
  narrow : BitVec 64 → BitVec 32
  widen : BitVec 32 → BitVec 64

/-- The number which the 64 bits stand for (IEEE 754). -/
def dec (b : W) : Num :=
  let n := b.toNat
  let neg := decide (n / 2 ^ 63 = 1)
  let e : Nat := n / 2 ^ 52 % 2 ^ 11
  let m := n % 2 ^ 52
  if e = 2047 then (if m = 0 then .inf neg else .nan)
  else if e = 0 then .fin neg m (-1074)
  else .fin neg (m + 2 ^ 52) ((e : Int) - 1075)

/-- The conversion of an integer of an integer type of up to 53 bits to `double`. -/
def encInt (i : Int) : W :=
  if i = 0 then 0#64
  else
    let a := i.natAbs
    let p := a.log2
    BitVec.ofNat 64 ((if i < 0 then 2 ^ 63 else 0) + (1023 + p) * 2 ^ 52 + (a - 2 ^ p) * 2 ^ (52 - p))

/-- `isnan` of a `double` and of a `float`. -/
def isNan64 (b : W) : Bool := b.toNat % 2 ^ 63 > 0x7ff * 2 ^ 52
def isNan32 (b : BitVec 32) : Bool := b.toNat % 2 ^ 31 > 0xff * 2 ^ 23

/-- `NAN`. -/
def nan : W := 0x7ff8000000000000#64

/-- `rjs_big_int_from_uint64` (/repo/src/lib/rjs_big_int_internal_opt.c:715-731). -/
def fromUint64 (n : Nat) : BI := BI.strip ⟨false, [n % base, n / base]⟩

/-- `rjs_big_int_from_int64` (rjs_big_int_internal_opt.c:684-706).  The absolute value of `-2 ^ 63`
is undefined. -/
def fromInt64 (i : Int) : Option BI :=
  if i = -(2 ^ 63) then none
  else some (BI.strip ⟨decide (i < 0), [i.natAbs % base, i.natAbs / base]⟩)

/-- `rjs_big_int_to_int64` and `rjs_big_int_to_uint64` up to the last assignment
(rjs_big_int_internal_opt.c:741-764, 774-797).  The negation of `-2 ^ 63` is undefined. -/
def toInt64 (x : BI) : Option Int :=
  match x.mag with
  | [] => some 0
  | d :: ds =>
    let i : Int :=
      match ds with
      | [] => d
      | d' :: _ => wrapS 64 ((d ||| (d' <<< 32) : Nat) : Int)
    if x.neg then (if i = -(2 ^ 63) then none else some (-i)) else some i

/-- The variable whose bytes `rjs_set_value_in_raw` stores (rjs_array_buffer_opt.c:465-628). -/
def store (F : Fpu) (ty : Ty) (v : Val) : Option Int :=
  match v with
  | .num b =>
    match ty with
    | .u8 => toUint 8 (dec b)
    | .u8c => some (toUint8Clamp (dec b))
    | .i8 => toInt 8 (dec b)
    | .u16 => toUint 16 (dec b)
    | .i16 => toInt 16 (dec b)
    | .u32 => toUint 32 (dec b)
    | .i32 => toInt 32 (dec b)
    | .f32 => some ((F.narrow b).toNat : Int)
    | .f64 => some (b.toNat : Int)
    | .bu64 | .bi64 => none
  | .big x =>
    match ty with
    | .bu64 => (toInt64 x).map (wrapU 64)
    | .bi64 => toInt64 x
    | _ => none

/-- `(uint8_t)(x >> (8 * k))`. -/
def byteOf (x : Int) (k : Nat) : Byte := BitVec.ofInt 8 (x / 2 ^ (8 * k))

/-- The stores `b[0] = ..., b[1] = ...` (e.g. rjs_array_buffer_opt.c:517-527). -/
def bytes (little : Bool) (n : Nat) (x : Int) : List Byte :=
  (List.range n).map fun i => if little then byteOf x i else byteOf x (n - 1 - i)

/-- `b[0] | (b[1] << 8) | ...` and `(b[0] << 24) | (b[1] << 16) | ...` (e.g.
rjs_array_buffer_opt.c:337-340). -/
def orLittle : Nat → List Byte → Nat
  | _, [] => 0
  | s, b :: bs => (b.toNat <<< s) ||| orLittle (s + 8) bs
def orBig : List Byte → Nat
  | [] => 0
  | b :: bs => (b.toNat <<< (8 * bs.length)) ||| orBig bs

/-- `BIGINT64`; the result is converted back, too (rjs_array_buffer_opt.c:390-394). -/
def viaInt64 (i : Int) : Option BI :=
  match fromInt64 i with
  | none => none
  | some x =>
    match toInt64 x with
    | none => none
    | some _ => some x
def readInt64 (n : Nat) : Option BI := viaInt64 (wrapS 64 n)

/-- The value made of the bytes (rjs_array_buffer_opt.c:300-440). -/
def load (F : Fpu) (ty : Ty) (n : Nat) : Option Val :=
  match ty with
  | .u8 | .u8c => some (.num (encInt n))
  | .i8 => some (.num (encInt (wrapS 8 n)))
  | .u16 => some (.num (encInt (wrapU 16 n)))
  | .i16 => some (.num (encInt (wrapS 16 n)))
  | .u32 => some (.num (encInt (wrapU 32 n)))
  | .i32 => some (.num (encInt (wrapS 32 n)))
  | .bu64 => some (.big (fromUint64 n))
  | .bi64 => (readInt64 n).map .big
  | .f32 =>
    let f := BitVec.ofNat 32 n
    some (.num (if isNan32 f then nan else F.widen f))
  | .f64 =>
    let d := BitVec.ofNat 64 n
    some (.num (if isNan64 d then nan else d))

/-- `rjs_get_value_from_raw` (rjs_array_buffer_opt.c:295-443). -/
def get (F : Fpu) (mem : List Byte) (off : Nat) (ty : Ty) (little : Bool) : Option Val :=
  if off + ty.size ≤ mem.length then
    let b := (mem.drop off).take ty.size
    load F ty (if little then orLittle 0 b else orBig b)
  else none

/-- Replace the bytes from `off` on. -/
def overwrite (mem : List Byte) (off : Nat) (b : List Byte) : List Byte :=
  mem.take off ++ b ++ mem.drop (off + b.length)

/-- `rjs_set_value_in_raw` (rjs_array_buffer_opt.c:456-656). -/
def put (F : Fpu) (mem : List Byte) (off : Nat) (ty : Ty) (v : Val) (little : Bool) : Option (List Byte) :=
  if off + ty.size ≤ mem.length then
    match store F ty v with
    | none => none
    | some x => some (overwrite mem off (bytes little ty.size x))
  else none

end Verif.Raw
