import Verif.Spec.Json
import Verif.Spec.NumStr
/-
What C47 means: which values are JSON values, when two of them are equal, and what is assumed of the
functions of the C library.
-/
namespace Verif.Json.Spec

variable {F : Type}

/-- Equal values: numbers are compared like `===` does, so `-0` is equal to `0`. -/
inductive Equal (L : Lib F) : Val F → Val F → Prop where
  | null : Equal L .null .null
  | bool (b) : Equal L (.bool b) (.bool b)
  | num (x) : Equal L (.num x) (.num x)
  | zero {x y} : L.view x = .negZero → L.view y = .index 0 → Equal L (.num x) (.num y)
  | str (s) : Equal L (.str s) (.str s)
  | arrNil : Equal L (.arr []) (.arr [])
  | arrCons {v v' l l'} : Equal L v v' → Equal L (.arr l) (.arr l') → Equal L (.arr (v :: l)) (.arr (v' :: l'))
  | objNil : Equal L (.obj []) (.obj [])
  | objCons {k v v' l l'} : Equal L v v' → Equal L (.obj l) (.obj l') →
      Equal L (.obj ((k, v) :: l)) (.obj ((k, v') :: l'))

/-- Values built from null, booleans, strings, finite numbers, arrays and objects.  An object is
made by defining properties one after another (a property may be defined again). -/
inductive JsonValue (L : Lib F) (create : List (List Nat × Val F) → List Nat → Val F → List (List Nat × Val F)) :
    Val F → Prop where
  | null : JsonValue L create .null
  | bool (b) : JsonValue L create (.bool b)
  | num {x} : L.view x ≠ .nan → L.view x ≠ .inf → JsonValue L create (.num x)
  | str {s} : (∀ c ∈ s, c < 65536) → JsonValue L create (.str s)
  | arr {l} : (∀ v ∈ l, JsonValue L create v) → JsonValue L create (.arr l)
  | obj (defs : List (List Nat × Val F)) : (∀ p ∈ defs, ∀ c ∈ p.1, c < 65536) →
      (∀ p ∈ defs, JsonValue L create p.2) →
      JsonValue L create (.obj (defs.foldl (fun l p => create l p.1 p.2) []))

/-- What is assumed of `rjs_dtoa` and `rjs_strtod` (David Gay's functions): the digits given for a
number are at most 17, do not begin with a zero, and every decimal numeral of that value is read as
the number. -/
structure Contract (L : Lib F) : Prop where
  /-- Array indices. -/
  index : ∀ x n, L.view x = .index n → ∀ t, NumStr.Spec.Denotes t false n 0 → L.strtod t = x
  digits : ∀ x neg ds k, L.view x = .dec neg ds k →
    ds ≠ [] ∧ ds.length ≤ 17 ∧ (∀ d ∈ ds, d < 10) ∧ ds.head? ≠ some 0 ∧ -400 ≤ k ∧ k ≤ 400
  decimal : ∀ x neg ds k, L.view x = .dec neg ds k →
    ∀ t, NumStr.Spec.Denotes t false (NumStr.Spec.val ds) (k - ds.length) →
      (if neg then L.neg (L.strtod t) else L.strtod t) = x
  /-- `0` is read as zero. -/
  zero : L.view (L.strtod [48]) = .index 0

end Verif.Json.Spec
