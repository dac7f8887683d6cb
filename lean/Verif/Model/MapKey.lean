/-
Model of the hash function and the comparison of Map/Set keys
(`/repo/src/lib/rjs_hash.c:272-325`, `/repo/include/ratjs/rjs_operation.h:300-416`,
`/repo/src/lib/rjs_string.c:861-883`).
-/
namespace Verif.MapSet

/-- A Number: NaN, a zero with its sign, any other number (named by its bits). -/
inductive Num
  | nan
  | zero (neg : Bool)
  | other (bits : Nat)
deriving DecidableEq, Repr

/-- A JavaScript value as a key.  Strings are their 16-bit units (the engine compares
them by content), BigInts are an address and a value, objects and symbols an address. -/
inductive Key
  | undef
  | null
  | bool (b : Bool)
  | num (n : Num)
  | str (s : List Nat)
  | bigint (addr : Nat) (value : Int)
  | ref (addr : Nat)
deriving DecidableEq, Repr

/-- `hash_op_string_key` (rjs_string.c:861-883), in `size_t` arithmetic. -/
def strHash (s : List Nat) : Nat :=
  if s.isEmpty then 0
  else s.foldl (fun v c => (v <<< 5 ||| c) % 2 ^ 64) 0x19781009

/-- `hash_op_value_key` (rjs_hash.c:273-300).  `cast` is the conversion of a double that
is not zero to `size_t`, `nanCast` that of a NaN; C leaves both open for numbers that do
not fit, so they are parameters. -/
def keyHash (cast : Nat → Nat) (nanCast : Nat) : Key → Nat
  | .undef => 0
  | .null => 0
  | .bool b => if b then 1 else 0
  | .num .nan => nanCast
  | .num (.zero _) => 0
  | .num (.other bits) => cast bits
  | .str s => strHash s
  | .bigint addr _ => addr
  | .ref addr => addr

/-- `rjs_same_value_0` (rjs_operation.h:397-416): NaN equals NaN, the zeros are equal,
strings are compared by content, BigInts by value (`rjs_big_int_same_value`), other
things by identity. -/
def sameValue0 : Key → Key → Bool
  | .undef, .undef => true
  | .null, .null => true
  | .bool a, .bool b => a == b
  | .num .nan, .num .nan => true
  | .num (.zero _), .num (.zero _) => true
  | .num (.other a), .num (.other b) => a == b
  | .str a, .str b => a == b
  | .bigint _ a, .bigint _ b => a == b
  | .ref a, .ref b => a == b
  | _, _ => false

end Verif.MapSet
