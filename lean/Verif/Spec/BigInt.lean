import Verif.Model.BigInt
/-
The meaning of a stored big integer: the integer it stands for, and which stored
forms are canonical.  Nothing here refers to the algorithms of the model.
-/
namespace Verif.BigInt

/-- The number written by a list of limbs, least significant first. -/
def val : List Nat → Nat
  | [] => 0
  | d :: ds => d + base * val ds

/-- The integer a stored big integer stands for. -/
def BI.toInt (x : BI) : Int := if x.neg then -(val x.mag : Int) else val x.mag

/-- Every limb fits in 32 bits. -/
def Digits (l : List Nat) : Prop := ∀ d ∈ l, d < base

/-- The top limb is not zero. -/
def TopNZ : List Nat → Prop
  | [] => True
  | [d] => d ≠ 0
  | _ :: d :: ds => TopNZ (d :: ds)

/-- Canonical stored form: 32 bit limbs, no leading zero limb, zero unsigned. -/
structure BI.WF (x : BI) : Prop where
  digits : Digits x.mag
  top : TopNZ x.mag
  sign : x.mag = [] → x.neg = false

/-- In the limb-wise subtraction `a - b` over `n` limbs a borrow, once it occurs,
is needed at every later limb: the borrow into limb `i` is needed exactly when
`a mod B^i < b mod B^i`. -/
def BorrowContiguous (a b n : Nat) : Prop :=
  ∀ i j, i < j → j < n → a % base ^ i < b % base ^ i → a % base ^ j < b % base ^ j

/-- The number written by digit values, most significant first, in a radix. -/
def evalDigits (radix : Nat) (ds : List Nat) : Nat := ds.foldl (fun acc d => acc * radix + d) 0

/-- Bit `i` of an integer in two's complement with infinite sign extension. -/
def ibit (x : Int) (i : Nat) : Bool := (x / 2 ^ i) % 2 = 1

instance (l : List Nat) : Decidable (Digits l) := by unfold Digits; infer_instance

instance decTopNZ : (l : List Nat) → Decidable (TopNZ l)
  | [] => .isTrue trivial
  | [d] => inferInstanceAs (Decidable (d ≠ 0))
  | _ :: d :: ds => decTopNZ (d :: ds)

instance (x : BI) : Decidable x.WF :=
  decidable_of_iff (Digits x.mag ∧ TopNZ x.mag ∧ (x.mag = [] → x.neg = false))
    ⟨fun ⟨a, b, c⟩ => ⟨a, b, c⟩, fun ⟨a, b, c⟩ => ⟨a, b, c⟩⟩

end Verif.BigInt
