import Verif.Spec.NumStr
import Mathlib.Algebra.Order.Field.Rat
import Mathlib.Algebra.Order.Field.Power

/-!
ECMA-262 21.1.3.2 (toExponential), 21.1.3.3 (toFixed), 21.1.3.5 (toPrecision), 21.1.3.6 (toString with
a radix).  Mathematical values are rationals; texts are lists of code units.
-/
namespace Verif.NumText.Spec
open NumStr.Spec (val chars)

/-- `l` are the decimal digits of `n`, without leading zeros. -/
def Dec (n : Nat) (l : List Nat) : Prop :=
  (∀ d ∈ l, d < 10) ∧ val l = n ∧ l ≠ [] ∧ (l.head? = some 0 → l = [0])

/-- `n / 10^f - x` is as close to zero as possible. -/
def NearFixed (x : ℚ) (f n : Nat) : Prop := ∀ m : Nat, |(n : ℚ) / 10 ^ f - x| ≤ |(m : ℚ) / 10 ^ f - x|

/-- 21.1.3.3 step 10.a: of two such `n` the larger. -/
def Nearest (x : ℚ) (f n : Nat) : Prop :=
  NearFixed x f n ∧ ∀ m : Nat, |(m : ℚ) / 10 ^ f - x| = |(n : ℚ) / 10 ^ f - x| → m ≤ n

/-- The text of `n / 10^f` with `f` digits behind the point. -/
def FixedText (f n : Nat) (s : List Nat) : Prop :=
  ∃ i fr : List Nat, (∀ d ∈ i ++ fr, d < 10) ∧ i ≠ [] ∧ (i.head? = some 0 → i = [0]) ∧ fr.length = f ∧
    val (i ++ fr) = n ∧ s = chars i ++ (if f = 0 then [] else 46 :: chars fr)

/-- `n` has `f + 1` digits, `n * 10^(e - f) - x` is as close to zero as possible. -/
def Near (x : ℚ) (f n : Nat) (e : ℤ) : Prop :=
  10 ^ f ≤ n ∧ n < 10 ^ (f + 1) ∧
  ∀ (m : Nat) (d : ℤ), 10 ^ f ≤ m → m < 10 ^ (f + 1) →
    |(n : ℚ) * 10 ^ (e - f) - x| ≤ |(m : ℚ) * 10 ^ (d - f) - x|

/-- 21.1.3.2 step 10.b and 21.1.3.5 step 10.a: of two such the larger. -/
def Closest (x : ℚ) (f n : Nat) (e : ℤ) : Prop :=
  Near x f n e ∧
  ∀ (m : Nat) (d : ℤ), 10 ^ f ≤ m → m < 10 ^ (f + 1) →
    |(m : ℚ) * 10 ^ (d - f) - x| = |(n : ℚ) * 10 ^ (e - f) - x| →
      (m : ℚ) * 10 ^ (d - f) ≤ (n : ℚ) * 10 ^ (e - f)

/-- The exponential form of the digits `d :: rest` and the exponent `e`. -/
def ExpText (ds : List Nat) (e : ℤ) (s : List Nat) : Prop :=
  ∃ d rest ex, ds = d :: rest ∧ Dec e.natAbs ex ∧
    s = chars [d] ++ (if rest = [] then [] else 46 :: chars rest) ++ [101] ++ [if e < 0 then 45 else 43] ++ chars ex

/-- 21.1.3.5 steps 10.c to 13: `ds` are the digits. -/
def PrecText (ds : List Nat) (e : ℤ) (s : List Nat) : Prop :=
  if e < -6 ∨ e ≥ ds.length then ExpText ds e s
  else if e ≥ 0 then
    s = chars (ds.take (e.toNat + 1)) ++ (if ds.length = e.toNat + 1 then [] else 46 :: chars (ds.drop (e.toNat + 1)))
  else s = 48 :: 46 :: (List.replicate (-(e + 1)).toNat 48 ++ chars ds)

/-- The digits of a number of `f + 1` digits. -/
def DigitsOf (f n : Nat) (ds : List Nat) : Prop := (∀ d ∈ ds, d < 10) ∧ ds.length = f + 1 ∧ val ds = n

/-- `x` lies in the middle between two numbers with `f` digits behind the point. -/
def FixedTie (x : ℚ) (f : Nat) : Prop := ∃ n : Nat, x = ((n : ℚ) + 1 / 2) / 10 ^ f

/-- `x` lies in the middle between two numbers of `f + 1` digits. -/
def Tie (x : ℚ) (f : Nat) : Prop :=
  ∃ (n : Nat) (e : ℤ), 10 ^ f ≤ n ∧ n < 10 ^ (f + 1) ∧ x = ((n : ℚ) + 1 / 2) * 10 ^ (e - f)

/-- A sign and a text. -/
def signed (neg : Bool) (s : List Nat) : List Nat := (if neg then [45] else []) ++ s

/-- The characters `0`-`9` and `a`-`z` for the digits up to 35. -/
def radixDigit (d : Nat) (c : Nat) : Prop := d < 10 ∧ c = 48 + d ∨ 10 ≤ d ∧ d < 36 ∧ c = 87 + d

/-- `s` are the digits of `n` in the radix `r`, without leading zeros. -/
inductive RadixText (r : Nat) : Nat → List Nat → Prop where
  | one (n c) : n < r → radixDigit n c → RadixText r n [c]
  | more (n d c s) : 0 < n → RadixText r n s → d < r → radixDigit d c → RadixText r (n * r + d) (s ++ [c])

end Verif.NumText.Spec
