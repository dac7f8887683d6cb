import Verif.Model.Value
/-
The values of the language with their content, and the bits of numbers (IEEE 754) and pointers.
-/
namespace Verif.Value.Spec

/-- A value: what kind of thing it is, and its content.  A number is given by its 64 bits, a thing
in memory by its address. -/
inductive JS
  | undefined | null
  | boolean (b : Bool)
  | number (bits : W)
  | string (p : W)
  | index (i : BitVec 32)
  | symbol (p : W) | bigInt (p : W) | object (p : W) | gcThing (p : W)
deriving DecidableEq

/-- The bits are a NaN: all bits of the exponent set, and a fraction which is not zero. -/
def IsNaN (b : W) : Prop := b.toNat % 2 ^ 63 > 0x7ff * 2 ^ 52

/-- The NaNs which the arithmetic of the machine produces: quiet, without payload, any sign. -/
def DefaultNaN (b : W) : Prop := b.toNat % 2 ^ 63 = 0x7ff8 * 2 ^ 48

/-- The address is a sign extended number of 48 bits. -/
def Fits (p : W) : Prop := p.toNat < 2 ^ 47 ∨ 2 ^ 64 - 2 ^ 47 ≤ p.toNat

/-- The values the claim speaks about. -/
def Good : JS → Prop
  | .number b => IsNaN b → DefaultNaN b
  | .string p | .symbol p | .bigInt p | .object p | .gcThing p => Fits p
  | _ => True

/-- The kind of a value. -/
def kind : JS → Ty
  | .undefined => .undefined
  | .null => .null
  | .boolean _ => .boolean
  | .number _ => .number
  | .string _ | .index _ => .string
  | .symbol _ => .symbol
  | .bigInt _ => .bigInt
  | .object _ => .object
  | .gcThing _ => .gcThing

end Verif.Value.Spec
