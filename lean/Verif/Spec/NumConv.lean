import Verif.Model.NumConv
/-
Integer conversions of the language (ECMA-262 7.1.6 and following), stated without the
functions of the model: only the representation of numbers is used.
-/
namespace Verif.NumConv.Spec

/-- `t` is the number without its fraction: the integer of the same sign with
`|t| ≤ |x| < |t| + 1`, where `|x| = m * 2 ^ e`. -/
def IsTrunc (x : Num) (t : Int) : Prop :=
  match x with
  | .fin neg m e =>
    (t.natAbs * 2 ^ (-e).toNat ≤ m * 2 ^ e.toNat ∧ m * 2 ^ e.toNat < (t.natAbs + 1) * 2 ^ (-e).toNat) ∧
    (if neg then t ≤ 0 else 0 ≤ t)
  | _ => False

/-- The integer which the modular conversions start from: 0 for NaN and the infinities. -/
def IntOf (x : Num) (t : Int) : Prop :=
  match x with
  | .fin .. => IsTrunc x t
  | _ => t = 0

/-- `r` is congruent to `t` modulo `2 ^ w` and in the range from `lo`. -/
def Modular (w : Nat) (lo : Int) (t r : Int) : Prop :=
  (∃ k : Int, r = t + k * 2 ^ w) ∧ lo ≤ r ∧ r < lo + 2 ^ w

/-- Bit `i` of an integer in two's complement. -/
def bit (z : Int) (i : Nat) : Bool := z / 2 ^ i % 2 = 1

/-- `r` is the nearest integer to the number `m * 2 ^ e`, the even one of two. -/
def Nearest (m : Nat) (e : Int) (r : Int) : Prop :=
  let a := 2 * ((m * 2 ^ e.toNat : Nat) : Int)
  let d : Int := ((2 ^ (-e).toNat : Nat) : Int)
  (2 * r - 1) * d ≤ a ∧ a ≤ (2 * r + 1) * d ∧ ((a = (2 * r - 1) * d ∨ a = (2 * r + 1) * d) → r % 2 = 0)

/-! ### Exponentiation (ECMA-262 6.1.6.1.3) -/

/-- The number is an odd integer. -/
def Odd : Num → Prop
  | .fin _ m e => ∃ k : Nat, m * 2 ^ e.toNat = (2 * k + 1) * 2 ^ (-e).toNat
  | _ => False

def EitherZero (x : Num) : Prop := ∃ s e, x = .fin s 0 e

/-- Above zero, below zero. -/
def Above : Num → Prop
  | .nan => False
  | .inf neg => neg = false
  | .fin neg m _ => neg = false ∧ 0 < m
def Below : Num → Prop
  | .nan => False
  | .inf neg => neg = true
  | .fin neg m _ => neg = true ∧ 0 < m

/-- The absolute value of a finite number, compared with one. -/
def Big : Num → Prop
  | .fin _ m e => m * 2 ^ e.toNat > 2 ^ (-e).toNat
  | _ => False
def AbsOne : Num → Prop
  | .fin _ m e => m * 2 ^ e.toNat = 2 ^ (-e).toNat
  | _ => False
def Small : Num → Prop
  | .fin _ m e => 0 < m ∧ m * 2 ^ e.toNat < 2 ^ (-e).toNat
  | _ => False

/-- EitherZero of the given sign, as a result. -/
def IsZero (neg : Bool) (r : Num) : Prop := ∃ e, r = .fin neg 0 e

/-- What the standard demands of `base ** exponent`. -/
structure ExpSpec (pow : Num → Num → Num) (b x r : Num) : Prop where
  expNan : x = .nan → r = .nan
  expZero : EitherZero x → r = .fin false 1 0
  baseNan : b = .nan → ¬ EitherZero x → r = .nan
  infPos : b = .inf false → Above x → r = .inf false
  infNeg : b = .inf false → Below x → IsZero false r
  ninfPosOdd : b = .inf true → Above x → Odd x → r = .inf true
  ninfPos : b = .inf true → Above x → ¬ Odd x → r = .inf false
  ninfNegOdd : b = .inf true → Below x → Odd x → IsZero true r
  ninfNeg : b = .inf true → Below x → ¬ Odd x → IsZero false r
  zeroPos : IsZero false b → Above x → IsZero false r
  zeroNeg : IsZero false b → Below x → r = .inf false
  nzeroPosOdd : IsZero true b → Above x → Odd x → IsZero true r
  nzeroPos : IsZero true b → Above x → ¬ Odd x → IsZero false r
  nzeroNegOdd : IsZero true b → Below x → Odd x → r = .inf true
  nzeroNeg : IsZero true b → Below x → ¬ Odd x → r = .inf false
  infBig : Big b → x = .inf false → r = .inf false
  infUnit : AbsOne b → ∀ s, x = .inf s → r = .nan
  infSmall : Small b → x = .inf false → IsZero false r
  negInfBig : Big b → x = .inf true → IsZero false r
  negInfSmall : Small b → x = .inf true → r = .inf false
  finite : (∃ s m e, b = .fin s m e ∧ 0 < m) → (∃ s m e, x = .fin s m e ∧ 0 < m) → r = pow b x

end Verif.NumConv.Spec
