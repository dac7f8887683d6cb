/-
Model of the built-in big integer implementation
(`/repo/src/lib/rjs_big_int_internal_opt.c`).

A big integer in C is a buffer `n` of 32 bit limbs, least significant first, and
a signed `size`: the number of limbs in use, negative for negative numbers
(`bi_size` 55-59, `bi_positive` 62-71).  Here it is a sign and the list of the
limbs in use.  Simplifications that hold for the whole file:
* memory allocation never fails, so the `RJS_ERR` results of `bi_set_cap` and
  `bi_set_item` (91-137) do not exist;
* limbs are `Nat`; 32 bit stores are `% base`, 64 bit unsigned arithmetic is
  reduced `% word` where it is computed, signed 64 bit arithmetic is `Int`;
* a loop which stores limb `i` with `bi_set_item (dst, i, v)` for `i = 0, 1, ...`
  is a recursion that conses `v`.
-/
namespace Verif.BigInt

/-- `2^32`, the radix of the limbs (`uint32_t *n`). -/
abbrev base : Nat := 4294967296

/-- `2^64`, the modulus of `uint64_t` arithmetic. -/
abbrev word : Nat := 18446744073709551616

/-- `RJS_BI`: `neg` is `size < 0`, `mag` is `n[0 .. |size|-1]`
(rjs_big_int_internal_opt.c:28-71).  A zero has `size = 0` and no sign, so
`neg = true` with `mag = []` does not occur (see `BI.negate`). -/
structure BI where
  neg : Bool
  mag : List Nat
deriving DecidableEq, Repr

/-- `bi_init`/`bi_set_0` (37-44, 83-88). -/
def BI.zero : BI := ⟨false, []⟩

/-- A positive `RJS_BI` with the given limbs: `bi_set_0` followed by
`bi_set_item` of all the limbs (84-88, 109-137). -/
def BI.ofMag (l : List Nat) : BI := ⟨false, l⟩

/-- `x->size = - x->size`: no effect on zero (e.g. 942, 968, 1300). -/
def BI.negate (x : BI) : BI := if x.mag = [] then ⟨false, []⟩ else ⟨!x.neg, x.mag⟩

/-- `x->size = RJS_ABS(x->size)` / `left.size = size1` (1482, 1782). -/
def BI.abs (x : BI) : BI := ⟨false, x.mag⟩

/-- `bi_positive(x) != 0` (62-71). -/
def BI.isZero (x : BI) : Bool := x.mag = []

/-- `bi_is_1` (74-81): the magnitude is one. -/
def BI.isOne (x : BI) : Bool := x.mag = [1]

/-- `bi_end` (141-163): drop the zero limbs at the top.  The C code walks down
from the top limb; here by recursion. -/
def strip : List Nat → List Nat
  | [] => []
  | d :: ds =>
    match strip ds with
    | [] => if d = 0 then [] else [d]
    | r => d :: r

/-- The result of `bi_end` on a signed value (141-163): the sign is lost when
nothing remains. -/
def BI.strip (x : BI) : BI :=
  match BigInt.strip x.mag with
  | [] => ⟨false, []⟩
  | l => ⟨x.neg, l⟩

/-- Outcome of the three way comparisons (`RJS_COMPARE_*`). -/
inductive Cmp | less | equal | greater
deriving DecidableEq, Repr

/-- Comparison of limbs from the top (259-267), on lists of the same length
given in reverse order. -/
def cmpTop : List Nat → List Nat → Cmp
  | a :: as, b :: bs => if a > b then .greater else if a < b then .less else cmpTop as bs
  | _, _ => .equal

/-- `bi_compare_abs` (244-271). -/
def cmpAbs (a b : List Nat) : Cmp :=
  if a.length < b.length then .less
  else if a.length > b.length then .greater
  else cmpTop a.reverse b.reverse

/-- `bi_compare` (275-306). -/
def compare (x y : BI) : Cmp :=
  if !x.isZero && x.neg then
    if !(!y.isZero && y.neg) then .less
    else match cmpAbs x.mag y.mag with
      | .less => .greater
      | .greater => .less
      | .equal => .equal
  else if x.isZero then
    if !y.isZero && y.neg then .greater
    else if y.isZero then .equal
    else .less
  else
    if y.isZero || y.neg then .greater
    else cmpAbs x.mag y.mag

/-- `rjs_big_int_same_value` (808-825): sizes (with sign), then limbs. -/
def sameValue (x y : BI) : Bool :=
  x.neg == y.neg && x.mag.length == y.mag.length && x.mag == y.mag

/-- The loop of `bi_mul_int` (331-345): `left` is the running carry. -/
def mulLoop (n : Nat) : List Nat → Nat → List Nat
  | [], left => if left ≠ 0 then [left % base] else []
  | d :: ds, left =>
    let res := (n * d + left) % word
    (res % base) :: mulLoop n ds (res / base)

/-- `bi_mul_int` (310-348): `src * n * 2^(32*shift)`.  The special case
`n == 1 && shift == 0` duplicates `src` including its sign, every other case
produces a non-negative result. -/
def mulInt (src : BI) (n : Nat) (shift : Nat) : BI :=
  if n = 0 then BI.zero
  else if n = 1 ∧ shift = 0 then src
  else BI.ofMag (List.replicate shift 0 ++ mulLoop n src.mag 0)

/-- The loop of `bi_self_add_int` (359-375), which stops when the carry is zero. -/
def selfAddLoop : List Nat → Nat → List Nat
  | [], left => if left ≠ 0 then [left % base] else []
  | d :: ds, left =>
    let res := (d + left) % word
    (res % base) :: (if res / base = 0 then ds else selfAddLoop ds (res / base))

/-- `bi_self_add_int` (352-378): add a small number to the magnitude, keeping
the sign. -/
def selfAddInt (x : BI) (n : Nat) : BI :=
  ⟨if x.mag = [] then false else x.neg, selfAddLoop x.mag n⟩

/-- The loop of `bi_add_int` (394-408). -/
def addIntLoop : List Nat → Nat → List Nat
  | [], left => if left ≠ 0 then [left % base] else []
  | d :: ds, left =>
    let sum := (d + left) % word
    (sum % base) :: addIntLoop ds (sum / base)

/-- `bi_add_int` (382-411): magnitude plus `n`, positive. -/
def addInt (x : BI) (n : Nat) : BI := BI.ofMag (addIntLoop x.mag n)

/-- The loop of `bi_sub_int` (427-443); `left` is the amount still to be
subtracted. -/
def subIntLoop : List Nat → Int → List Nat
  | [], _ => []
  | d :: ds, left =>
    let sum : Int := d - left
    if sum < 0 then ((base + sum).toNat % base) :: subIntLoop ds 1
    else (sum.toNat % base) :: subIntLoop ds 0

/-- `bi_sub_int` (415-447): magnitude minus `n` (the magnitude must be at least
`n`), positive. -/
def subInt (x : BI) (n : Nat) : BI := (BI.ofMag (subIntLoop x.mag n)).strip

/-- The loop of `bi_div_int` (465-476) from the top limb down, on the limbs in
reverse order; returns the quotient limbs (top first) and the remainder. -/
def divIntLoop (n : Nat) : List Nat → Nat → List Nat × Nat
  | [], left => ([], left)
  | d :: ds, left =>
    let sum := (d + left * base) % word
    let (q, r) := divIntLoop n ds (sum % n)
    ((sum / n) % base :: q, r)

/-- `bi_div_int` (451-482) for `n ≥ 2`; the case `n == 1` (458-461, with swapped
arguments of `bi_dup`) is not reachable, the radix is at least 2. -/
def divInt (x : BI) (n : Nat) : BI × Nat :=
  let (q, r) := divIntLoop n x.mag.reverse 0
  ((BI.ofMag q.reverse).strip, r)

/-- `rjs_big_int_from_chars` (557-598) on the digit values of the characters
(`rjs_hex_char_to_number`); the caller guarantees valid digits. -/
def fromDigits (radix : Nat) : List Nat → BI → BI
  | [], acc => acc
  | c :: cs, acc => fromDigits radix cs (selfAddInt (mulInt acc radix 0) c)

/-- The digit loop of `rjs_big_int_to_string` (878-896): digit values, least
significant first.  `fuel` bounds the number of iterations; the caller supplies
one which is never used up (theorem `toDigits_fuel`). -/
def toDigitsLoop (radix : Nat) : Nat → BI → List Nat
  | 0, _ => []
  | fuel + 1, x =>
    if x.isZero then []
    else
      let (q, r) := divInt x radix
      r :: toDigitsLoop radix fuel q

/-- `rjs_big_int_to_string` (852-921): the sign and the digit values, most
significant first.  Characters are left out: digit `d` is `'0'+d` or
`'a'+d-10`. -/
def toDigits (x : BI) (radix : Nat) : Bool × List Nat :=
  if x.isZero then (false, [0])
  else (x.neg, (toDigitsLoop radix (32 * x.mag.length + 1) x).reverse)

/-- `rjs_big_int_unary_minus` (932-946). -/
def unaryMinus (x : BI) : BI := if x.isZero then BI.zero else x.negate

/-- `rjs_big_int_bitwise_not` (957-977). -/
def bitwiseNot (x : BI) : BI := if x.neg then subInt x 1 else (addInt x 1).negate

/-- `rjs_big_int_inc` (988-1009). -/
def inc (x : BI) : BI := if x.neg then (subInt x 1).negate else addInt x 1

/-- `rjs_big_int_dec` (1020-1045). -/
def dec (x : BI) : BI :=
  if x.isZero then ⟨true, [1]⟩
  else if x.neg then (addInt x 1).negate
  else subInt x 1

/-- The loop of `bi_add`/`bi_self_add` (1061-1085, 1106-1130): missing limbs are
read as zero.  Once the first operand is used up, `0 + b + left` is what
`addIntLoop` computes. -/
def addLoop : List Nat → List Nat → Nat → List Nat
  | [], bs, left => addIntLoop bs left
  | a :: as, [], left =>
    let sum := (a + 0 + left) % word
    (sum % base) :: addLoop as [] (sum / base)
  | a :: as, b :: bs, left =>
    let sum := (a + b + left) % word
    (sum % base) :: addLoop as bs (sum / base)

/-- `bi_add` (1092-1133): sum of the magnitudes, positive. -/
def addMag (x y : BI) : BI := BI.ofMag (addLoop x.mag y.mag 0)

/-- `bi_self_add` (1049-1088): sum of the magnitudes, the sign of the first
operand is kept. -/
def selfAdd (x y : BI) : BI :=
  ⟨if x.mag = [] then false else x.neg, addLoop x.mag y.mag 0⟩

/-- One limb of the subtraction loops (1165-1172, 1217-1224): the limb stored and
the new borrow.  `left` is set when a borrow occurs and never reset. -/
def subStep (a b left : Nat) : Nat × Nat :=
  let res : Int := (a : Int) - b - left
  if res < 0 then ((res + base).toNat % base, 1)
  else (res.toNat % base, left)

/-- The loop of `bi_sub_greater` (1203-1228) above the limbs of the first
operand, which are read as zero. -/
def subTail : List Nat → Nat → List Nat
  | [], _ => []
  | b :: bs, left =>
    let (v, l) := subStep 0 b left
    v :: subTail bs l

/-- The loop of `bi_sub_greater` (1203-1228) up to the longer of the two lengths;
missing limbs are zero. -/
def subLoop : List Nat → List Nat → Nat → List Nat
  | [], bs, left => subTail bs left
  | a :: as, [], left =>
    let (v, l) := subStep a 0 left
    v :: subLoop as [] l
  | a :: as, b :: bs, left =>
    let (v, l) := subStep a b left
    v :: subLoop as bs l

/-- `bi_sub_greater` (1187-1232). -/
def subGreater (x y : BI) : BI := (BI.ofMag (subLoop x.mag y.mag 0)).strip

/-- The loop of `bi_self_sub_greater` (1151-1179): as `subLoop`, but it stops
after the first limb above the second operand at which no borrow is pending,
leaving the remaining limbs unchanged. -/
def selfSubLoop : List Nat → List Nat → Nat → List Nat
  | [], bs, left => subTail bs left
  | a :: as, [], left =>
    let (v, l) := subStep a 0 left
    if l = 0 then v :: as else v :: selfSubLoop as [] l
  | a :: as, b :: bs, left =>
    let (v, l) := subStep a b left
    v :: selfSubLoop as bs l

/-- `bi_self_sub_greater` (1137-1183). -/
def selfSubGreater (x y : BI) : BI := BI.strip ⟨x.neg, selfSubLoop x.mag y.mag 0⟩

/-- `bi_sub` (1236-1264): difference of the magnitudes. -/
def subMag (x y : BI) : BI :=
  match cmpAbs x.mag y.mag with
  | .equal => BI.zero
  | .less => (subGreater y x).negate
  | .greater => subGreater x y

/-- `rjs_big_int_add` (1276-1306). -/
def add (x y : BI) : BI :=
  let d := if x.neg = y.neg then addMag x y else subMag x y
  if x.neg then d.negate else d

/-- `rjs_big_int_subtract` (1318-1346). -/
def subtract (x y : BI) : BI :=
  let d := if x.neg = y.neg then subMag x y else addMag x y
  if x.neg then d.negate else d

/-- The loop of `bi_mul` (1391-1404) over the limbs of the second operand;
`i` is the limb index, `sum` the accumulator. -/
def mulRows (src1 : BI) : List Nat → Nat → BI → BI
  | [], _, sum => sum
  | n :: ns, i, sum =>
    let mres := mulInt src1 n i
    let sum' := if i = 0 then mres else selfAdd sum mres
    mulRows src1 ns (i + 1) sum'

/-- `bi_mul` (1350-1417) and `rjs_big_int_multiply` (1429-1436); the destination
is a fresh zero. -/
def mul (x y : BI) : BI :=
  if x.isZero || y.isZero then BI.zero
  else if x.isOne then (if x.neg then y.negate else y)
  else if y.isOne then (if y.neg then x.negate else x)
  else
    let sum := mulRows x y.mag 0 BI.zero
    if x.neg ≠ y.neg then sum.negate else sum

/-- The inner `while (1)` loop of `bi_div` (1508-1547) for one position: `left`
is what remains of the dividend, `qr` the quotient so far, `v2` the estimate
divisor.  `left.n[size-1]` (1509) may lie above the size of `left` after
`bi_end`; the limb there is one that was found to be zero, so it is read as zero.
`fuel` bounds the number of iterations, `none` means it was used up. -/
def divInner (cmp : List Nat) (size size2 shift v2 : Nat) : Nat → BI → BI → Option (BI × BI)
  | 0, _, _ => none
  | fuel + 1, left, qr =>
    let v1 := left.mag.getD (size - 1) 0 +
      (if size < left.mag.length then left.mag.getD size 0 * base else 0)
    let n0 := v1 / v2
    let n1 := if n0 = 0 then
        (if size = size2 ∧ compare left (BI.ofMag cmp) ≠ .less then 1 else 0)
      else n0
    if n1 = 0 then some (left, qr)
    else
      let n := if n1 > 4294967295 then 4294967295 else n1
      let add := BI.ofMag (List.replicate shift 0 ++ [n])
      divInner cmp size size2 shift v2 fuel
        (selfSubGreater left (mulInt (BI.ofMag cmp) n 0)) (selfAdd qr add)

/-- The outer loop of `bi_div` (1484-1548), `k - 1` is the `shift`. -/
def divOuter (op2 : List Nat) : Nat → BI → BI → Option (BI × BI)
  | 0, left, qr => some (left, qr)
  | shift + 1, left, qr =>
    let size := shift + op2.length
    let cmp := List.replicate shift 0 ++ op2
    let v2 := cmp.getD (size - 1) 0 + (if size - 1 ≠ 0 then 1 else 0)
    match divInner cmp size op2.length shift v2 (base ^ left.mag.length + 1) left qr with
    | none => none
    | some (left', qr') => divOuter op2 shift left' qr'

/-- Result of `bi_div`: a range error, a loop that did not stop within the fuel,
or quotient and remainder. -/
inductive DivResult
  | rangeError
  | diverge
  | ok (quot rem : BI)
deriving DecidableEq, Repr

/-- `bi_div` (1440-1576). -/
def div (x y : BI) : DivResult :=
  if y.isZero then .rangeError
  else if x.isZero then .ok BI.zero BI.zero
  else if y.isOne then .ok (if y.neg then x.negate else x) BI.zero
  else
    match divOuter y.mag (x.mag.length + 1 - y.mag.length) x.abs BI.zero with
    | none => .diverge
    | some (left, qr) =>
      .ok (if x.neg ≠ y.neg then qr.negate else qr) (if x.neg then left.negate else left)

/-- The search loop of `bi_exp` (1689-1698) for the highest power of two `v ≤ e`,
with its exponent; `fuel` 32 is enough for `e < 2^32`. -/
def topPow (e : Nat) : Nat → Nat → Nat → Nat × Nat
  | 0, v, s => (v, s)
  | f + 1, v, s =>
    if 2 * v > e then (v, s)
    else if 2 * v = e then (2 * v, s + 1)
    else topPow e f (2 * v) (s + 1)

/-- `bi_map_get` (1660-1678): the `2^k`-th power of the base by repeated squaring.
The table of already computed powers is left out. -/
def sqPow (b : BI) : Nat → BI
  | 0 => b
  | k + 1 => mul (sqPow b k) (sqPow b k)

/-- `bi_exp` (1682-1722); `fuel` bounds the recursion depth (one level per set bit
of `e`). -/
def expLoop (b : BI) : Nat → Nat → BI → BI
  | 0, _, res => res
  | f + 1, e, res =>
    let (v, s) := topPow e 32 1 0
    let res' := mul (sqPow b s) res
    if e > v then expLoop b f (e - v) res' else res'

/-- Result of operations which may raise a `RangeError`. -/
inductive Res
  | rangeError
  | ok (r : BI)
deriving DecidableEq, Repr

/-- `rjs_big_int_exponentiate` (1734-1799). -/
def exponentiate (x y : BI) : Res :=
  if y.neg then .rangeError
  else if y.isZero then .ok (BI.ofMag [1])
  else if x.isZero then .ok BI.zero
  else if y.mag.length > 1 then .rangeError
  else
    let e := y.mag.headD 0
    let d :=
      if x.isOne then BI.ofMag [1]
      else if e = 1 then x
      else expLoop x.abs 33 e (BI.ofMag [1])
    -- the sign is applied to the absolute value except when `e = 1`, where the
    -- duplicate of `x` already carries it (1774-1776, 1791-1792)
    .ok (if x.neg ∧ e % 2 = 1 then d.negate else d)

/-- The limbs of `bi_complement` (1803-1817) before `bi_end`. -/
def complRaw (l : List Nat) : List Nat :=
  selfAddLoop (l.map fun d => base - 1 - d) 1

/-- `bi_complement` (1803-1819) into a fresh destination. -/
def complement (l : List Nat) : List Nat := strip (complRaw l)

/-- The right shift loop of `bi_shift` (1880-1896) on the limbs from index `off`
on; `ext` is the limb read above the top (`0` or `0xffffffff`). -/
def shrLoop (bits ext : Nat) : List Nat → List Nat
  | [] => []
  | [d] => ((d + ext * base) / 2 ^ bits % base) :: []
  | d :: d' :: ds => ((d + d' * base) / 2 ^ bits % base) :: shrLoop bits ext (d' :: ds)

/-- The left shift loop of `bi_shift` (1905-1916): the limbs and the carry out of
the top limb. -/
def shlLoop (bits : Nat) : List Nat → Nat → List Nat × Nat
  | [], left => ([], left)
  | d :: ds, left =>
    let v := d * 2 ^ bits % word + left
    let (r, l) := shlLoop bits ds (v / base % base)
    (v % base :: r, l)

/-- `bi_shift` (1823-1941); `right` is true when the effective direction (sign of
`src2` and `rev`) is to the right.  `n->n[j]` of a complemented negative operand is
read up to the original size, where limbs dropped by `bi_end` are zero. -/
def shift (x y : BI) (rev : Bool) : Res :=
  if y.isZero then .ok x
  else
    let right : Bool := if rev then !y.neg else y.neg
    if y.mag.length > 1 then
      if right then .ok (if x.neg then ⟨true, [1]⟩ else BI.zero) else .rangeError
    else
      let s := if x.neg then complRaw x.mag else x.mag
      let amt := y.mag.headD 0
      let off := amt / 32
      let bits := amt % 32
      let d :=
        if right then
          shrLoop bits (if x.neg then base - 1 else 0) (s.drop off)
        else
          let (r, left) := shlLoop bits s 0
          List.replicate off 0 ++ r ++
            (if left ≠ 0 then
              [if x.neg then left ||| ((base - 1) * 2 ^ bits % base) else left]
            else [])
      let d := strip d
      if x.neg then .ok (BI.negate (BI.ofMag (complement d))) else .ok (BI.ofMag d)

/-- The bit operation of a limb (2062-2072). -/
inductive BitOp | and | or | xor
deriving DecidableEq, Repr

def BitOp.apply : BitOp → Nat → Nat → Nat
  | .and, a, b => a &&& b
  | .or, a, b => a ||| b
  | .xor, a, b => a ^^^ b

/-- The operand limbs of `bi_bit_op` (2017-2043): two's complement with one
additional sign limb.  Limbs dropped by `bi_end` inside `bi_complement` are zero
in the buffer and are counted again by `bi_set_item (&t1, size1, ..)`. -/
def twosLimbs (x : BI) : List Nat :=
  if x.neg then complRaw x.mag ++ [base - 1] else x.mag ++ [0]

/-- The loop of `bi_bit_op` (2049-2076); `e1`, `e2` are the limbs used above the
operands' sizes. -/
def bitLoop (op : BitOp) (e1 e2 : Nat) : List Nat → List Nat → List Nat
  | [], bs => bs.map fun b => op.apply e1 b
  | a :: as, [] => op.apply a e2 :: bitLoop op e1 e2 as []
  | a :: as, b :: bs => op.apply a b :: bitLoop op e1 e2 as bs

/-- `bi_bit_op` (2002-2101). -/
def bitOp (op : BitOp) (x y : BI) : BI :=
  let res := bitLoop op (if x.neg then base - 1 else 0) (if y.neg then base - 1 else 0)
    (twosLimbs x) (twosLimbs y)
  if res.getLastD 0 ≥ 2147483648 then
    BI.negate (BI.ofMag (complement (strip res)))
  else BI.ofMag (strip res)

/-- `bi_bits` (2229-2282): the low `bits` bits, positive.  Limbs above the size of
the (complemented) source are read as zero. -/
def lowBits (x : BI) (bits : Nat) : List Nat :=
  let inp := if x.neg then complement x.mag else x.mag
  let off := bits / 32
  let b := bits % 32
  let low := (List.range off).map fun i => inp.getD i 0
  strip (low ++ (if b ≠ 0 then [inp.getD off 0 % 2 ^ b] else []))

/-- `rjs_big_int_as_uint_n` (2349-2355). -/
def asUintN (bits : Nat) (x : BI) : BI := BI.ofMag (lowBits x bits)

/-- `rjs_big_int_as_int_n` (2294-2337).  For `bits = 0` the C code computes
`off = 0`, `b = -1`, but the result of `bi_bits` is empty and the shift by `b` is
not evaluated; `bits - 1` in `Nat` gives the same `off`. -/
def asIntN (bits : Nat) (x : BI) : BI :=
  let res := lowBits x bits
  let off := (bits - 1) / 32
  let b := (bits - 1) % 32
  if res.length > off ∧ (res.getD off 0) / 2 ^ b % 2 = 1 then
    let n := res.getD off 0 ||| ((base - 1) * 2 ^ b % base)
    BI.negate (BI.ofMag (complement (res.set off n)))
  else BI.ofMag res

end Verif.BigInt
