/-
Unicode text, UTF-16, UTF-8 and the percent encoding of the language (ECMA-262 19.2.6), stated
without reference to the model.
-/
namespace Verif.Uri.Spec

/-- A Unicode scalar value. -/
def Scalar (u : Nat) : Prop := u < 0xd800 ∨ (0xe000 ≤ u ∧ u < 0x110000)

/-- UTF-16 of a scalar value. -/
def utf16 (u : Nat) : List Nat :=
  if u < 0x10000 then [u]
  else [0xd800 + (u - 0x10000) / 1024, 0xdc00 + (u - 0x10000) % 1024]

/-- UTF-8 of a scalar value. -/
def utf8 (u : Nat) : List Nat :=
  if u < 0x80 then [u]
  else if u < 0x800 then [0xc0 + u / 64, 0x80 + u % 64]
  else if u < 0x10000 then [0xe0 + u / 4096, 0x80 + u / 64 % 64, 0x80 + u % 64]
  else [0xf0 + u / 262144, 0x80 + u / 4096 % 64, 0x80 + u / 64 % 64, 0x80 + u % 64]

/-- A string is the UTF-16 of a text. -/
def TextOf (s : List Nat) (us : List Nat) : Prop := (∀ u ∈ us, Scalar u) ∧ s = us.flatMap utf16

/-- `A-Z a-z 0-9 - _ . ! ~ * ' ( )`. -/
def alnumMark : List Nat :=
  [65, 66, 67, 68, 69, 70, 71, 72, 73, 74, 75, 76, 77, 78, 79, 80, 81, 82, 83, 84, 85, 86, 87, 88,
   89, 90, 97, 98, 99, 100, 101, 102, 103, 104, 105, 106, 107, 108, 109, 110, 111, 112, 113, 114,
   115, 116, 117, 118, 119, 120, 121, 122, 48, 49, 50, 51, 52, 53, 54, 55, 56, 57, 45, 95, 46, 33,
   126, 42, 39, 40, 41]

/-- `; / ? : @ & = + $ , #`. -/
def reservedSet : List Nat := [59, 47, 63, 58, 64, 38, 61, 43, 36, 44, 35]

/-- The characters which are not escaped by `encodeURIComponent` (`comp`) or `encodeURI`. -/
def plain (comp : Bool) : List Nat := if comp then alnumMark else alnumMark ++ reservedSet

/-- The upper case digit. -/
def hexDigit (n : Nat) : Nat := if n < 10 then 48 + n else 55 + n

/-- `%XX`. -/
def pct (b : Nat) : List Nat := [37, hexDigit (b / 16), hexDigit (b % 16)]

/-- The encoding of a text. -/
def encoded (comp : Bool) (us : List Nat) : List Nat :=
  us.flatMap fun u => if u ∈ plain comp then [u] else (utf8 u).flatMap pct

/-- `c` is a hexadecimal digit of value `n`, in either case. -/
def IsHex (c n : Nat) : Prop :=
  (48 ≤ c ∧ c ≤ 57 ∧ n = c - 48) ∨ (65 ≤ c ∧ c ≤ 70 ∧ n = c - 55) ∨ (97 ≤ c ∧ c ≤ 102 ∧ n = c - 87)

/-- `e` is a string of escapes for the bytes `bs`. -/
inductive IsPct : List Nat → List Nat → Prop where
  | nil : IsPct [] []
  | cons (a b x y : Nat) (e bs : List Nat) : IsHex a x → IsHex b y → IsPct e bs →
      IsPct (37 :: a :: b :: e) ((x * 16 + y) :: bs)

/-- The decoding of the language: characters which are not `%` stay; escapes of the UTF-8 of a
scalar value are decoded, unless it is a reserved character and `comp` is false. -/
inductive Decoded (comp : Bool) : List Nat → List Nat → Prop where
  | nil : Decoded comp [] []
  | lit (c : Nat) (s o : List Nat) : c ≠ 37 → Decoded comp s o → Decoded comp (c :: s) (c :: o)
  | esc (u : Nat) (e s o : List Nat) : Scalar u → IsPct e (utf8 u) → Decoded comp s o →
      Decoded comp (e ++ s) ((if comp = false ∧ u ∈ reservedSet then e else utf16 u) ++ o)

/-- A continuation byte. -/
def Cont (b : Nat) : Prop := 0x80 ≤ b ∧ b < 0xc0

/-- The bytes have the form of UTF-8 with the value `u`: a first byte and the number of
continuation bytes which it asks for. -/
def Form (bs : List Nat) (u : Nat) : Prop :=
  (∃ a, bs = [a] ∧ a < 0x80 ∧ u = a) ∨
  (∃ a b, bs = [a, b] ∧ 0xc0 ≤ a ∧ a < 0xe0 ∧ Cont b ∧ u = (a - 0xc0) * 64 + (b - 0x80)) ∨
  (∃ a b c, bs = [a, b, c] ∧ 0xe0 ≤ a ∧ a < 0xf0 ∧ Cont b ∧ Cont c ∧
    u = (a - 0xe0) * 4096 + (b - 0x80) * 64 + (c - 0x80)) ∨
  (∃ a b c d, bs = [a, b, c, d] ∧ 0xf0 ≤ a ∧ a < 0xf8 ∧ Cont b ∧ Cont c ∧ Cont d ∧
    u = (a - 0xf0) * 262144 + (b - 0x80) * 4096 + (c - 0x80) * 64 + (d - 0x80))

/-- The string contains escapes of a sequence of the form of UTF-8 which is not the UTF-8 of a
scalar value: not the shortest one, a surrogate, or too large. -/
def HasBad (s : List Nat) : Prop :=
  ∃ a e b bs u, s = a ++ e ++ b ∧ IsPct e bs ∧ Form bs u ∧ ¬ (Scalar u ∧ bs = utf8 u)

/-- The string ends in `%` and one hexadecimal digit. -/
def Truncated (s : List Nat) : Prop := ∃ a c n, s = a ++ [37, c] ∧ IsHex c n

end Verif.Uri.Spec
