/-
Model of the conversions of numbers to integers (`/repo/include/ratjs/rjs_operation.h`) and of
the integer operators on numbers (`/repo/src/lib/rjs_number.c`).

A number is NaN, an infinity, or plus or minus `m * 2 ^ e`.  (The numbers of the machine have
`m < 2 ^ 53` and `-1074 ≤ e ≤ 971`; nothing here depends on these bounds, and zero has
`m = 0`.)  The functions get numbers: the conversion of other values to numbers
(`rjs_to_number`) is not modelled.
-/
namespace Verif.NumConv

inductive Num where
  | nan
  | inf (neg : Bool)
  | fin (neg : Bool) (m : Nat) (e : Int)
deriving DecidableEq

/-- Numerator and denominator of the absolute value. -/
def num (m : Nat) (e : Int) : Nat := m * 2 ^ e.toNat
def den (e : Int) : Nat := 2 ^ (-e).toNat

/-- The value cut to an integer, as the conversion of `double` to an integer type does (C11
6.3.1.4). -/
def cut (neg : Bool) (m : Nat) (e : Int) : Int :=
  if neg then -((num m e / den e : Nat) : Int) else ((num m e / den e : Nat) : Int)

/-- The conversion of a `double` to an integer type with the range from `lo` to `hi`; `none`: the
value does not fit, which is undefined (C11 6.3.1.4). -/
def cast (lo hi : Int) : Num → Option Int
  | .nan => none
  | .inf _ => none
  | .fin neg m e => if lo ≤ cut neg m e ∧ cut neg m e ≤ hi then some (cut neg m e) else none

/-- `(int64_t)n`. -/
def castInt64 (n : Num) : Option Int := cast (-(2 ^ 63)) (2 ^ 63 - 1) n

/-- `(uint32_t)n`. -/
def castUint32 (n : Num) : Option Int := cast 0 (2 ^ 32 - 1) n

/-- The conversion to an unsigned (C11 6.3.1.3) or signed (as gcc does it) integer type of
`w` bits. -/
def wrapU (w : Nat) (i : Int) : Int := i % 2 ^ w
def wrapS (w : Nat) (i : Int) : Int :=
  if i % 2 ^ w < 2 ^ (w - 1) then i % 2 ^ w else i % 2 ^ w - 2 ^ w

/-- `isnan(n) || isinf(n) || (n == 0)`. -/
def special : Num → Bool
  | .nan => true
  | .inf _ => true
  | .fin _ m _ => m == 0

/-- `rjs_to_int8`, `rjs_to_int16`, `rjs_to_int32` (rjs_operation.h:734-750, 825-841, 877-893). -/
def toInt (w : Nat) (n : Num) : Option Int :=
  if special n then some 0 else (castInt64 n).map (wrapS w)

/-- `rjs_to_uint8`, `rjs_to_uint16`, `rjs_to_uint32` (rjs_operation.h:760-776, 851-867,
903-919). -/
def toUint (w : Nat) (n : Num) : Option Int :=
  if special n then some 0 else (castInt64 n).map (wrapU w)

/-- `rjs_to_uint8_clamp` (rjs_operation.h:786-815).  `f + 0.5` is exact, as `f` is at most
255. -/
def toUint8Clamp : Num → Int
  | .nan => 0
  | .inf neg => if neg then 0 else 0xff
  | .fin neg m e =>
    -- `n < 0`
    if neg && m != 0 then 0
    -- `n > 255`
    else if num m e > 255 * den e then 0xff
    else
      let f := num m e / den e
      -- `f + 0.5 < n`
      if (2 * f + 1) * den e < 2 * num m e then (f : Int) + 1
      -- `n < f + 0.5`
      else if 2 * num m e < (2 * f + 1) * den e then (f : Int)
      -- `((int)f) & 1`
      else if f % 2 = 1 then (f : Int) + 1
      else (f : Int)

/-- `rjs_number_unsigned_right_shift` (rjs_number.c:95-103).  A shift by 32 or more is undefined
(C11 6.5.7). -/
def ushr (a b : Num) : Option Int :=
  match castUint32 a, castUint32 b with
  | some n1, some n2 => if n2 < 32 then some (n1 / 2 ^ n2.toNat) else none
  | _, _ => none

/-- A 32 bit integer as bits. -/
def bits (i : Int) : BitVec 32 := BitVec.ofInt 32 i

/-- `rjs_number_bitwise_not` (rjs_number.c:34-42). -/
def bnot (a : Num) : Option Int :=
  match toInt 32 a with
  | some i => some (~~~ bits i).toInt
  | none => none

/-- `rjs_number_bitwise_and`, `_xor`, `_or` (rjs_number.c:112-163). -/
def bbin (op : BitVec 32 → BitVec 32 → BitVec 32) (a b : Num) : Option Int :=
  match toInt 32 a, toInt 32 b with
  | some n1, some n2 => some (op (bits n1) (bits n2)).toInt
  | _, _ => none

/-- `rjs_number_left_shift` (rjs_number.c:51-64).  The shift of a signed integer is done on its
bits, as gcc does it. -/
def shl (a b : Num) : Option Int :=
  match toInt 32 a, toUint 32 b with
  | some n1, some n2 => some (bits n1 <<< (n2.toNat &&& 31)).toInt
  | _, _ => none

/-- `rjs_number_signed_right_shift` (rjs_number.c:73-86).  The right shift of a negative integer
keeps the sign, as gcc does it. -/
def sshr (a b : Num) : Option Int :=
  match toInt 32 a, toUint 32 b with
  | some n1, some n2 => some ((bits n1).sshiftRight (n2.toNat &&& 31)).toInt
  | _, _ => none

/-- `rjs_is_integral_number` (rjs_operation.h:87-97). -/
def isIntegral : Num → Bool
  | .fin _ m e => num m e / den e * den e == num m e
  | _ => false

/-- The parity test in `rjs_number_exponentiate` (rjs_number.c:189, 197):
`rjs_is_integral_number(n2) && (((int64_t)n2) & 1)`. -/
def isOdd (n : Num) : Option Bool :=
  if isIntegral n then (castInt64 n).map fun i => i % 2 == 1 else some false

/-- Comparisons with constants: `n == 0`, `n > 0`. -/
def isZero : Num → Bool
  | .fin _ m _ => m == 0
  | _ => false
def isPos : Num → Bool
  | .nan => false
  | .inf neg => !neg
  | .fin neg m _ => !neg && m != 0

/-- `fabs(n) > 1` and `fabs(n) == 1`. -/
def absGt1 : Num → Bool
  | .nan => false
  | .inf _ => true
  | .fin _ m e => num m e > den e
def absEq1 : Num → Bool
  | .fin _ m e => num m e == den e
  | _ => false

/-- A zero with the given sign, and one. -/
def zero (neg : Bool) : Num := .fin neg 0 0
def one : Num := .fin false 1 0

/-- `signbit`. -/
def signbit : Num → Bool
  | .nan => false
  | .inf neg => neg
  | .fin neg _ _ => neg

/-- `rjs_number_exponentiate` (rjs_number.c:172-229); `pow` is the function of the C library.
`none`: undefined. -/
def expo (pow : Num → Num → Num) (n1 n2 : Num) : Option Num :=
  if n2 = .nan then some .nan
  else if isZero n2 then some one
  else if n1 = .nan then some .nan
  else if n1 = .inf false then some (if isPos n2 then .inf false else zero false)
  else if n1 = .inf true then
    (isOdd n2).map fun odd =>
      if isPos n2 then (if odd then .inf true else .inf false)
      else (if odd then zero true else zero false)
  else if isZero n1 then
    if signbit n1 then
      (isOdd n2).map fun odd =>
        if isPos n2 then (if odd then zero true else zero false)
        else (if odd then .inf true else .inf false)
    else some (if isPos n2 then zero false else .inf false)
  else if n2 = .inf false then
    some (if absGt1 n1 then .inf false else if absEq1 n1 then .nan else zero false)
  else if n2 = .inf true then
    some (if absGt1 n1 then zero false else if absEq1 n1 then .nan else .inf false)
  else some (pow n1 n2)

end Verif.NumConv
