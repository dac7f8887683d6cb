import Verif.Model.Raw
import Verif.Spec.NumConv
import Verif.Spec.BigInt
/-
What bytes stand for, and what conversion to an element type means (ECMA-262 25.1.3), without the
functions of the model.
-/
namespace Verif.Raw.Spec
open NumConv BigInt
open NumConv.Spec (IntOf Modular Nearest)
open Value (W)

/-- The number written by bytes, the lowest first. -/
def number : List Byte → Nat
  | [] => 0
  | b :: bs => b.toNat + 256 * number bs

/-- The number of an element: its bytes from the lowest to the highest address, or the other way
round. -/
def element (mem : List Byte) (off n : Nat) (little : Bool) : Nat :=
  let b := (mem.drop off).take n
  number (if little then b else b.reverse)

/-- The number is exactly the integer, and not minus zero. -/
def IsInt (x : Num) (i : Int) : Prop :=
  match x with
  | .fin neg m e => m * 2 ^ e.toNat = i.natAbs * 2 ^ (-e).toNat ∧ (neg = true ↔ i < 0)
  | _ => False

/-- The nearest integer from 0 to 255. -/
def Clamped (x : Num) (i : Int) : Prop :=
  match x with
  | .nan => i = 0
  | .inf neg => i = if neg then 0 else 255
  | .fin neg m e =>
    (neg = true → i = 0) ∧
    (neg = false → m * 2 ^ e.toNat ≥ 255 * 2 ^ (-e).toNat → i = 255) ∧
    (neg = false → m * 2 ^ e.toNat ≤ 255 * 2 ^ (-e).toNat → Nearest m e i)

/-- The integer types: bits, and the lowest integer. -/
def intType : Ty → Option (Nat × Int)
  | .u8 | .u8c => some (8, 0)
  | .i8 => some (8, -(2 ^ 7))
  | .u16 => some (16, 0)
  | .i16 => some (16, -(2 ^ 15))
  | .u32 => some (32, 0)
  | .i32 => some (32, -(2 ^ 31))
  | .bu64 => some (64, 0)
  | .bi64 => some (64, -(2 ^ 63))
  | .f32 | .f64 => none

/-- The value is this integer, as a number or a big integer, as the element type demands. -/
def HasInt (ty : Ty) (v : Val) (i : Int) : Prop :=
  match v with
  | .num b => ty ≠ .bu64 ∧ ty ≠ .bi64 ∧ IsInt (dec b) i
  | .big x => (ty = .bu64 ∨ ty = .bi64) ∧ x.WF ∧ x.toInt = i

def NaN64 (b : W) : Prop := b.toNat / 2 ^ 52 % 2 ^ 11 = 2047 ∧ b.toNat % 2 ^ 52 ≠ 0
def NaN32 (b : BitVec 32) : Prop := b.toNat / 2 ^ 23 % 2 ^ 8 = 255 ∧ b.toNat % 2 ^ 23 ≠ 0

/-- The value which an element with the number `z` stands for. -/
def Means (F : Fpu) (ty : Ty) (z : Nat) (v : Val) : Prop :=
  match intType ty with
  | some (w, lo) => ∃ i, Modular w lo z i ∧ HasInt ty v i
  | none =>
    if ty = .f32 then
      ∃ f : BitVec 32, f.toNat = z ∧ (NaN32 f → v = .num nan) ∧ (¬ NaN32 f → v = .num (F.widen f))
    else ∃ d : W, d.toNat = z ∧ (NaN64 d → v = .num nan) ∧ (¬ NaN64 d → v = .num d)

/-- `r` is the value `v` converted to the element type. -/
def Converted (F : Fpu) (ty : Ty) (v r : Val) : Prop :=
  match v with
  | .num b =>
    match ty with
    | .u8c => ∃ i, Clamped (dec b) i ∧ HasInt ty r i
    | .f32 => (NaN32 (F.narrow b) → r = .num nan) ∧ (¬ NaN32 (F.narrow b) → r = .num (F.widen (F.narrow b)))
    | .f64 => (NaN64 b → r = .num nan) ∧ (¬ NaN64 b → r = .num b)
    | _ => ∃ w lo t i, intType ty = some (w, lo) ∧ IntOf (dec b) t ∧ Modular w lo t i ∧ HasInt ty r i
  | .big x => ∃ lo i, intType ty = some (64, lo) ∧ Modular 64 lo x.toInt i ∧ HasInt ty r i

end Verif.Raw.Spec
