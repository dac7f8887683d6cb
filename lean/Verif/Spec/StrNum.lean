/-!
The conversion of strings to numbers as the standard describes it (ECMA-262, 7.1.4.1
StringNumericLiteral, 7.1.14 StringIntegerLiteral, 19.2.5 parseInt).  Strings are lists of code units.
Nothing here refers to the model.
-/
namespace Verif.StrNum.Spec

/-- WhiteSpace (12.2, with the characters of the category Zs) or LineTerminator (12.3). -/
def White (c : Nat) : Prop :=
  (9 ≤ c ∧ c ≤ 13) ∨ c = 0x20 ∨ c = 0xa0 ∨ c = 0x1680 ∨ (0x2000 ≤ c ∧ c ≤ 0x200a) ∨ c = 0x2028 ∨
  c = 0x2029 ∨ c = 0x202f ∨ c = 0x205f ∨ c = 0x3000 ∨ c = 0xfeff

/-- The value of a digit. -/
def dig (c : Nat) : Nat :=
  if c ≤ 57 then c - 48 else if c ≤ 90 then c - 55 else c - 87

/-- A digit of the base (up to 36). -/
def IsDig (base c : Nat) : Prop :=
  ((48 ≤ c ∧ c ≤ 57) ∨ (65 ≤ c ∧ c ≤ 90) ∨ (97 ≤ c ∧ c ≤ 122)) ∧ dig c < base

def Digits (base : Nat) (ds : List Nat) : Prop := ∀ c, c ∈ ds → IsDig base c

/-- The integer written by the digits. -/
def value (base : Nat) (ds : List Nat) : Nat := ds.foldl (fun n c => n * base + dig c) 0

/-- Numbers. -/
structure Sem (F : Type) where
  /-- The number nearest to m · 10^e, or minus that. -/
  dec : Bool → Nat → Int → F
  /-- The number nearest to n. -/
  nat : Nat → F
  inf : Bool → F
  nan : F
  zero : F

/-- An exponent part, or nothing, and the exponent. -/
inductive Exp : List Nat → Int → Prop
  | none : Exp [] 0
  | plain {c : Nat} {ds : List Nat} : c = 101 ∨ c = 69 → ds ≠ [] → Digits 10 ds → Exp (c :: ds) (value 10 ds)
  | plus {c : Nat} {ds : List Nat} : c = 101 ∨ c = 69 → ds ≠ [] → Digits 10 ds → Exp (c :: 43 :: ds) (value 10 ds)
  | minus {c : Nat} {ds : List Nat} : c = 101 ∨ c = 69 → ds ≠ [] → Digits 10 ds → Exp (c :: 45 :: ds) (-(value 10 ds : Int))

/-- StrUnsignedDecimalLiteral without Infinity: the text, the digits as an integer, the exponent part and the
number of digits behind the point. -/
inductive Dec : List Nat → Nat → Int → Nat → Prop
  | int {ds es : List Nat} {x : Int} : ds ≠ [] → Digits 10 ds → Exp es x → Dec (ds ++ es) (value 10 ds) x 0
  | point {ds fs es : List Nat} {x : Int} : ds ≠ [] → Digits 10 ds → Digits 10 fs → Exp es x →
      Dec (ds ++ 46 :: (fs ++ es)) (value 10 (ds ++ fs)) x fs.length
  | lead {fs es : List Nat} {x : Int} : fs ≠ [] → Digits 10 fs → Exp es x →
      Dec (46 :: (fs ++ es)) (value 10 fs) x fs.length

/-- An exponent of modest size. -/
def Modest (x : Int) : Prop := -19999 ≤ x ∧ x ≤ 19999

/-- The characters of "Infinity". -/
def infinity : List Nat := [73, 110, 102, 105, 110, 105, 116, 121]

/-- A sign, or nothing. -/
inductive Sign : List Nat → Bool → Prop
  | none : Sign [] false
  | plus : Sign [43] false
  | minus : Sign [45] true

/-- The prefix of a number in another base. -/
inductive Prefix : List Nat → Nat → Prop
  | bin {c : Nat} : c = 98 ∨ c = 66 → Prefix [48, c] 2
  | oct {c : Nat} : c = 111 ∨ c = 79 → Prefix [48, c] 8
  | hex {c : Nat} : c = 120 ∨ c = 88 → Prefix [48, c] 16

/-- StrNumericLiteral, or nothing, and the number.  `E` restricts the integers written in other bases, `X` the
exponents. -/
inductive Body {F : Type} (S : Sem F) (E : Nat → Prop) (X : Int → Prop) : List Nat → F → Prop
  | empty : Body S E X [] S.zero
  | dec {sg t : List Nat} {neg : Bool} {m n : Nat} {x : Int} : Sign sg neg → Dec t m x n → X x →
      Body S E X (sg ++ t) (S.dec neg m (x - n))
  | inf {sg : List Nat} {neg : Bool} : Sign sg neg → Body S E X (sg ++ infinity) (S.inf neg)
  | other {p ds : List Nat} {base : Nat} : Prefix p base → ds ≠ [] → Digits base ds → E (value base ds) →
      Body S E X (p ++ ds) (S.nat (value base ds))

/-- StringNumericLiteral. -/
def Lit {F : Type} (S : Sem F) (E : Nat → Prop) (X : Int → Prop) (s : List Nat) (v : F) : Prop :=
  ∃ w b w', s = w ++ (b ++ w') ∧ (∀ c, c ∈ w → White c) ∧ (∀ c, c ∈ w' → White c) ∧ Body S E X b v

/-- StrIntegerLiteral, or nothing, and the integer. -/
inductive IntBody : List Nat → Int → Prop
  | empty : IntBody [] 0
  | dec {sg ds : List Nat} {neg : Bool} : Sign sg neg → ds ≠ [] → Digits 10 ds →
      IntBody (sg ++ ds) (if neg then -(value 10 ds : Int) else value 10 ds)
  | other {p ds : List Nat} {base : Nat} : Prefix p base → ds ≠ [] → Digits base ds → IntBody (p ++ ds) (value base ds)

/-- StringIntegerLiteral. -/
def IntLit (s : List Nat) (x : Int) : Prop :=
  ∃ w b w', s = w ++ (b ++ w') ∧ (∀ c, c ∈ w → White c) ∧ (∀ c, c ∈ w' → White c) ∧ IntBody b x

/-- A natural number that is a double (of any size): 53 significant bits. -/
def Repr (n : Nat) : Prop := ∃ q k, q < 2 ^ 53 ∧ n = q * 2 ^ k

/-- No comment: neither `//` nor `/*` occurs. -/
def NoComment (s : List Nat) : Prop := ∀ a b, s ≠ a ++ 47 :: 47 :: b ∧ s ≠ a ++ 47 :: 42 :: b

/-- No white space right behind a sign. -/
def SignClose (s : List Nat) : Prop := ∀ a c d b, s = a ++ c :: d :: b → c = 43 ∨ c = 45 → ¬ White d

/-- An exponent with ten digits or more somewhere. -/
def LongExp (s : List Nat) : Prop :=
  ∃ a c sg ds b, s = a ++ c :: (sg ++ (ds ++ b)) ∧ (c = 101 ∨ c = 69) ∧ (sg = [] ∨ sg = [43] ∨ sg = [45]) ∧
    Digits 10 ds ∧ 10 ≤ ds.length

/-- Numbers: the value of a decimal literal does not depend on how it is written. -/
structure Laws {F : Type} (S : Sem F) : Prop where
  scale : ∀ (neg : Bool) (m : Nat) (e : Int) (k : Nat), S.dec neg (m * 10 ^ k) (e - k) = S.dec neg m e
  zero : ∀ neg e, S.dec neg 0 e = S.dec neg 0 0

/-- What is known of the tables of Unicode: White_Space contains U+0085 too, and what is white space
is no part of an identifier. -/
structure Tables (white idStart idCont : Nat → Bool) : Prop where
  white : ∀ c, 128 ≤ c → (white c = true ↔ (White c ∧ c ≠ 0xfeff) ∨ c = 0x85)
  start : ∀ c, 128 ≤ c → White c → idStart c = false
  cont : ∀ c, 128 ≤ c → White c → idCont c = false

end Verif.StrNum.Spec
