import Verif.Spec.StrNum

/-!
`parseFloat` and `parseInt` as the standard describes them (ECMA-262, 19.2.4 and 19.2.5).  Nothing here
refers to the model.
-/
namespace Verif.StrNum.Spec

/-- White space at the start is taken away. -/
def Strip (s b : List Nat) : Prop :=
  (∃ w, s = w ++ b ∧ ∀ c, c ∈ w → White c) ∧ ∀ c, b.head? = some c → ¬ White c

/-- StrDecimalLiteral. -/
inductive FloatLit : List Nat → Prop
  | dec {sg t : List Nat} {neg : Bool} {m n : Nat} {x : Int} : Sign sg neg → Dec t m x n → FloatLit (sg ++ t)
  | inf {sg : List Nat} {neg : Bool} : Sign sg neg → FloatLit (sg ++ infinity)

/-- `l` is the longest start of `b` with the property, `r` the rest. -/
def Longest (P : List Nat → Prop) (b l r : List Nat) : Prop :=
  b = l ++ r ∧ P l ∧ ∀ l' r', b = l' ++ r' → P l' → l'.length ≤ l.length

/-- "Inf", and what looks like it. -/
def InfLike (r : List Nat) : Prop := ∃ x y u, r = 73 :: x :: y :: u ∧ (x = 110 ∨ x = 78) ∧ (y = 102 ∨ y = 70)

/-- m · 10^e is so large that the nearest number is infinite: 2^1024 - 2^970 and more. -/
def Huge (m : Nat) (e : Int) : Prop := (2 ^ 1024 - 2 ^ 970) * 10 ^ (-e).toNat ≤ m * 10 ^ e.toNat

/-- The parts of the argument of `parseInt`: behind the white space the sign, the prefix, the digits, the rest. -/
structure Parts (s : List Nat) (radix : Int) (sg : List Nat) (neg : Bool) (pre : List Nat) (base : Nat) (ds rest : List Nat) :
    Prop where
  strip : Strip s (sg ++ (pre ++ (ds ++ rest)))
  sign : Sign sg neg
  signed : sg = [] → ∀ c, (pre ++ (ds ++ rest)).head? = some c → c ≠ 43 ∧ c ≠ 45
  hex : pre ≠ [] → (radix = 0 ∨ radix = 16) ∧ base = 16 ∧ (pre = [48, 120] ∨ pre = [48, 88])
  plain : pre = [] → base = (if radix = 0 then 10 else radix.toNat) ∧
    ((radix = 0 ∨ radix = 16) → ∀ c r, ds ++ rest = 48 :: c :: r → c ≠ 120 ∧ c ≠ 88)
  digits : Digits base ds
  stop : ∀ c, rest.head? = some c → ¬ IsDig base c

/-- The result of `parseInt`, if the radix is 0 or from 2 to 36. -/
def intValue {F : Type} (S : Sem F) (neg : Bool) (base : Nat) (ds : List Nat) : F :=
  if ds = [] then S.nan else S.dec neg (value base ds) 0

end Verif.StrNum.Spec
