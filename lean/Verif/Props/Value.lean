import Verif.Lemmas.Value
/-
C51: the encoding of values is unambiguous.
-/
namespace Verif.Value
open Spec

/-- The setter which the engine uses for each kind of value. -/
def encode : JS → W
  | .undefined => setUndefined
  | .null => setNull
  | .boolean b => setBoolean b
  | .number n => setNumber n
  | .string p => setPointer p tString
  | .index i => setIndex i
  | .symbol p => setPointer p tSymbol
  | .bigInt p => setPointer p tBigInt
  | .object p => setPointer p tObject
  | .gcThing p => setPointer p tGcThing

/-- What the getters give for the value: the getter is selected by `rjs_value_get_type`, and for
strings by the test of the tag (`rjs_value_is_index_string`, rjs_value.h:622-627). -/
def read (v : W) : JS :=
  match getType v with
  | .undefined => .undefined
  | .null => .null
  | .boolean => .boolean (getBoolean v)
  | .number => .number (getNumber v)
  | .string => if getTag v = tIndexString then .index (getIndex v) else .string (getPointer v)
  | .symbol => .symbol (getPointer v)
  | .bigInt => .bigInt (getPointer v)
  | .object => .object (getPointer v)
  | .gcThing => .gcThing (getPointer v)

/-- **C51 is violated** for NaNs with a payload, which an embedding program can pass to
`rjs_value_set_number`: this NaN is the value `undefined`, the next one is taken for an object at
address 16. -/
theorem C51_violated :
    IsNaN 0x7ff9000000000000#64 ∧ getType (setNumber 0x7ff9000000000000#64) = .undefined ∧
    setNumber 0x7ff9000000000000#64 = setUndefined ∧
    IsNaN 0xfff9000000000010#64 ∧ getType (setNumber 0xfff9000000000010#64) = .object ∧
    getPointer (setNumber 0xfff9000000000010#64) = 16#64 := by
  unfold IsNaN
  decide +kernel

/-- **C51, partial** (NaNs are those of the machine's arithmetic; all other numbers, all
booleans, all index strings, all pointers of 48 bits): the kind of the value is recovered. -/
theorem C51_kind_partial (x : JS) (h : Good x) : getType (encode x) = kind x := by
  cases x with
  | undefined => decide +kernel
  | null => decide +kernel
  | boolean b => cases b <;> decide +kernel
  | number b => exact getType_number h
  | index i => unfold encode getType; rw [getTag_index]; rfl
  | _ => unfold encode getType; rw [getTag_pointer (by decide)]; rfl

/-- **C51, partial**: the value with its content is recovered. -/
theorem C51_partial (x : JS) (h : Good x) : read (encode x) = x := by
  unfold read
  rw [C51_kind_partial x h]
  cases x with
  | boolean b => exact congrArg JS.boolean (getBoolean_set b)
  | index i =>
    show (if getTag (setIndex i) = tIndexString then JS.index (getIndex (setIndex i)) else _) = _
    rw [getTag_index, if_pos rfl, getIndex_set]
  | string p =>
    show (if getTag (setPointer p tString) = tIndexString then _ else JS.string _) = _
    rw [getTag_pointer (by decide), if_neg (by decide)]
    exact congrArg JS.string (getPointer_set (by decide) h)
  | symbol p => exact congrArg JS.symbol (getPointer_set (by decide) h)
  | bigInt p => exact congrArg JS.bigInt (getPointer_set (by decide) h)
  | object p => exact congrArg JS.object (getPointer_set (by decide) h)
  | gcThing p => exact congrArg JS.gcThing (getPointer_set (by decide) h)
  | _ => rfl

/-- Different values have different encodings: no number is mistaken for a pointer, a boolean,
null, undefined or an index string, and so on. -/
theorem C51_injective_partial (x y : JS) (hx : Good x) (hy : Good y) (h : encode x = encode y) :
    x = y := by
  rw [← C51_partial x hx, h, C51_partial y hy]

/-- Every number that is not a NaN is a number; nothing is assumed about the bits. -/
theorem C51_number (b : W) (h : ¬ IsNaN b) :
    getType (setNumber b) = .number ∧ getNumber (setNumber b) = b :=
  ⟨getType_number fun h' => absurd h' h, rfl⟩

-- a pointer in the upper half, minus infinity, and the default NaN are covered
example : Good (.object 0xffff800012345678#64) ∧ read (encode (.object 0xffff800012345678#64)) =
    .object 0xffff800012345678#64 := ⟨by unfold Good Fits; decide, by decide +kernel⟩
example : Good (.number 0xfff0000000000000#64) ∧ Good (.number 0xfff8000000000000#64) ∧
    read (encode (.number 0xfff8000000000000#64)) = .number 0xfff8000000000000#64 :=
  ⟨fun h => absurd h (by unfold IsNaN; decide), fun _ => by unfold DefaultNaN; decide, by decide +kernel⟩

end Verif.Value
