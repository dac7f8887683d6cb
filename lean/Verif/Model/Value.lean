/-
Model of the encoding of values in 64 bits (`/repo/include/ratjs/rjs_value.h`), for machines with
pointers of 64 bits.  A value which is named by its position on the value stack
(`rjs_value_get_pointer`, 104-118) is the value at this position.
-/
namespace Verif.Value

/-- `RJS_Value`, and also the bits of `RJS_Number` and of a pointer. -/
abbrev W := BitVec 64

/-- `RJS_VALUE_TAG_*` (rjs_value.h:44-61). -/
def tUndefined : Nat := 0x7ff9
def tNull : Nat := 0x7ffa
def tBoolean : Nat := 0x7ffb
def tString : Nat := 0x7ffc
def tSymbol : Nat := 0x7ffd
def tBigInt : Nat := 0x7ffe
def tObject : Nat := 0xfff9
def tGcThing : Nat := 0xfffa
def tIndexString : Nat := 0xfffb

/-- `rjs_value_get_tag` (rjs_value.h:146-150). -/
def getTag (v : W) : Nat := ((v >>> 48) &&& 0xffff#64).toNat

/-- `rjs_value_from_tag` (rjs_value.h:153-157). -/
def fromTag (t : Nat) : W := BitVec.ofNat 64 t <<< 48

/-- `RJS_ValueType`. -/
inductive Ty
  | undefined | null | boolean | string | symbol | bigInt | object | gcThing | number
deriving DecidableEq, Repr

/-- `rjs_value_get_type` (rjs_value.h:165-203). -/
def getType (v : W) : Ty :=
  if getTag v = tUndefined then .undefined
  else if getTag v = tNull then .null
  else if getTag v = tBoolean then .boolean
  else if getTag v = tString then .string
  else if getTag v = tIndexString then .string
  else if getTag v = tSymbol then .symbol
  else if getTag v = tBigInt then .bigInt
  else if getTag v = tObject then .object
  else if getTag v = tGcThing then .gcThing
  else .number

/-- `rjs_value_set_undefined`, `rjs_value_set_null` (rjs_value.h:210-251). -/
def setUndefined : W := fromTag tUndefined
def setNull : W := fromTag tNull

/-- `rjs_value_set_boolean` (rjs_value.h:258-263). -/
def setBoolean (b : Bool) : W := fromTag tBoolean ||| (if b then 1#64 else 0#64)

/-- `rjs_value_set_number` (rjs_value.h:272-277): the bits of the number, as they are. -/
def setNumber (n : W) : W := n

/-- `rjs_value_set_gc_thing_tag` (rjs_value.h:287-292), used by `rjs_value_set_string`, `_symbol`,
`_big_int`, `_object` and `_gc_thing`. -/
def setPointer (p : W) (t : Nat) : W := fromTag t ||| (p &&& 0xffffffffffff#64)

/-- `rjs_value_set_index_string` (rjs_value.h:313-318). -/
def setIndex (i : BitVec 32) : W := fromTag tIndexString ||| i.zeroExtend 64

/-- `rjs_value_get_boolean` (rjs_value.h:377-382). -/
def getBoolean (v : W) : Bool := (v &&& 1#64) != 0#64

/-- `rjs_value_get_number` (rjs_value.h:391-396). -/
def getNumber (v : W) : W := v

/-- `rjs_value_pointer_get_gc_thing` (rjs_value.h:405-419). -/
def getPointer (v : W) : W :=
  let p := v &&& 0xffffffffffff#64
  if (p &&& 0x800000000000#64) != 0#64 then p ||| 0xffff000000000000#64 else p

/-- `rjs_value_get_index_string` (rjs_value.h:476-481). -/
def getIndex (v : W) : BitVec 32 := v.truncate 32

end Verif.Value
