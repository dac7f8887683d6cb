import Verif.Model.Operators
/-
The operators as the standard defines them (ECMA-262 7.1.1 ToPrimitive, 7.1.3 ToNumeric, 7.2.13
IsLessThan, 7.2.14 IsLooselyEqual, 7.2.15 IsStrictlyEqual, 7.2.10 SameValue, 13.15.3
ApplyStringOrNumericBinaryOperator).  Numbers and big integers are given their mathematical value;
what runs JavaScript code is a relation with one rule for each way through the text of the
standard.  Only the values, the parameters (`World`) and the runs (`Except Exc α × σ`) of the model
are used.
-/
namespace Verif.Operators
open Verif.NumConv (Num)
open Verif.BigInt (BI)

/-! ### Values of numbers -/

/-- The rational number `± m * 2 ^ e`. -/
def valQ (neg : Bool) (m : Nat) (e : Int) : Rat := (if neg then -1 else 1) * (m : Rat) * (2 : Rat) ^ e

/-- The mathematical values. -/
inductive Ext where
  | nan
  | ninf
  | fin (q : Rat)
  | pinf

/-- The value of a number. -/
def ext : Num → Ext
  | .nan => .nan
  | .inf true => .ninf
  | .inf false => .pinf
  | .fin neg m e => .fin (valQ neg m e)

/-- The value of a big integer. -/
def extB (x : BI) : Ext := .fin (x.toInt : Rat)

/-- The order of the mathematical values; a NaN is not less than anything. -/
def Ext.Lt : Ext → Ext → Prop
  | .ninf, .fin _ => True
  | .ninf, .pinf => True
  | .fin _, .pinf => True
  | .fin a, .fin b => a < b
  | _, _ => False

/-- Equality of mathematical values; a NaN is not equal to anything. -/
def Ext.Eq : Ext → Ext → Prop
  | .ninf, .ninf => True
  | .pinf, .pinf => True
  | .fin a, .fin b => a = b
  | _, _ => False

/-- A relation of two mathematical values. -/
def Rel.On (r : Rel) (a b : Ext) : Prop :=
  match r with
  | .lt => a.Lt b
  | .le => a.Lt b ∨ a.Eq b
  | .gt => b.Lt a
  | .ge => b.Lt a ∨ a.Eq b

/-- A relation of two strings: the lexicographic order of the code units. -/
def Rel.OnStr (r : Rel) (a b : List Nat) : Prop :=
  match r with
  | .lt => List.Lex (· < ·) a b
  | .le => List.Lex (· < ·) a b ∨ a = b
  | .gt => List.Lex (· < ·) b a
  | .ge => List.Lex (· < ·) b a ∨ a = b

/-! ### Primitive values -/

/-- The primitive values; a string is its code units. -/
inductive P where
  | undef
  | null
  | bool (b : Bool)
  | num (n : Dbl)
  | str (l : List Nat)
  | sym (i : Nat)
  | big (x : Big)

def P.isStr : P → Bool
  | .str _ => true
  | _ => false

/-- The value `v` is the primitive value `p`. -/
inductive Is : V → P → Prop
  | undef : Is .undef .undef
  | null : Is .null .null
  | bool (b : Bool) : Is (.bool b) (.bool b)
  | num (n : Dbl) : Is (.num n) (.num n)
  | str (s : SV) : Is (.str s) (.str s.chars)
  | sym (i : Nat) : Is (.sym i) (.sym i)
  | big (x : Big) : Is (.big x) (.big x)

/-- The digits of an index string read as its number. -/
def IndexNum {σ : Type} (W : World σ) : Prop :=
  ∀ n, n < 2 ^ 32 → (W.strNum (Str.decimal n)).1 = .fin false n 0

/-- The number of a primitive value, for those which have one. -/
def numOf {σ : Type} (W : World σ) : P → Except Exc Dbl
  | .undef => .ok ⟨.nan, trivial⟩
  | .null => .ok ⟨.fin false 0 0, by decide⟩
  | .bool false => .ok ⟨.fin false 0 0, by decide⟩
  | .bool true => .ok ⟨.fin false 1 0, by decide⟩
  | .num n => .ok n
  | .str l => .ok (W.strNum l)
  | .sym _ => .error .typeError
  | .big _ => .error .typeError

/-- A Numeric value: a number or a big integer. -/
inductive Numeric where
  | n (n : Dbl)
  | b (x : Big)

def Numeric.ext : Numeric → Ext
  | .n x => Operators.ext x.1
  | .b x => extB x.1

/-- ToNumeric of a primitive value. -/
def numericOf {σ : Type} (W : World σ) : P → Except Exc Numeric
  | .big x => .ok (.b x)
  | p => (numOf W p).map .n

/-- The string of a primitive value, if it has one. -/
def strOf {σ : Type} (W : World σ) : P → Except Exc (List Nat)
  | .undef => .ok (ascii "undefined")
  | .null => .ok (ascii "null")
  | .bool true => .ok (ascii "true")
  | .bool false => .ok (ascii "false")
  | .num n => .ok (W.numStr n)
  | .str l => .ok l
  | .sym _ => .error .typeError
  | .big x => .ok (W.bigStr x)

/-! ### ToPrimitive -/

section
variable {σ : Type} (W : World σ)

/-- OrdinaryToPrimitive: the methods of the list in turn. -/
inductive Ordinary (o : Nat) : List Key → σ → Except Exc P → σ → Prop
  | none {s} : Ordinary o [] s (.error .typeError) s
  | getErr {k ks s e s'} : W.get o k s = (.error e, s') → Ordinary o (k :: ks) s (.error e) s'
  | skip {k ks s v s' r s''} : W.get o k s = (.ok v, s') →
      (∀ f, v = .obj f → W.callable f = false) → Ordinary o ks s' r s'' →
      Ordinary o (k :: ks) s r s''
  | callErr {k ks s f s' e s''} : W.get o k s = (.ok (.obj f), s') → W.callable f = true →
      W.call f (.obj o) [] s' = (.error e, s'') → Ordinary o (k :: ks) s (.error e) s''
  | prim {k ks s f s' v p s''} : W.get o k s = (.ok (.obj f), s') → W.callable f = true →
      W.call f (.obj o) [] s' = (.ok v, s'') → Is v p → Ordinary o (k :: ks) s (.ok p) s''
  | obj {k ks s f s' i s'' r s'''} : W.get o k s = (.ok (.obj f), s') → W.callable f = true →
      W.call f (.obj o) [] s' = (.ok (.obj i), s'') → Ordinary o ks s'' r s''' →
      Ordinary o (k :: ks) s r s'''

/-- The order of the methods for a hint. -/
def order : Hint → List Key
  | .string => [.toString, .valueOf]
  | .number => [.valueOf, .toString]
  | .none => [.valueOf, .toString]

/-- The string for a hint. -/
def hintStr : Hint → String
  | .string => "string"
  | .number => "number"
  | .none => "default"

/-- ToPrimitive. -/
inductive ToPrim (h : Hint) : V → σ → Except Exc P → σ → Prop
  | prim {v p s} : Is v p → ToPrim h v s (.ok p) s
  | getErr {o s e s'} : W.get o .toPrimitive s = (.error e, s') → ToPrim h (.obj o) s (.error e) s'
  | notFn {o s v s'} : W.get o .toPrimitive s = (.ok v, s') → v ≠ .undef → v ≠ .null →
      (∀ f, v = .obj f → W.callable f = false) → ToPrim h (.obj o) s (.error .typeError) s'
  | ordinary {o s v s' r s''} : W.get o .toPrimitive s = (.ok v, s') → v = .undef ∨ v = .null →
      Ordinary W o (order h) s' r s'' → ToPrim h (.obj o) s r s''
  | callErr {o s f s' e s''} : W.get o .toPrimitive s = (.ok (.obj f), s') → W.callable f = true →
      W.call f (.obj o) [.str (.units (ascii (hintStr h)))] s' = (.error e, s'') →
      ToPrim h (.obj o) s (.error e) s''
  | exotic {o s f s' v p s''} : W.get o .toPrimitive s = (.ok (.obj f), s') →
      W.callable f = true →
      W.call f (.obj o) [.str (.units (ascii (hintStr h)))] s' = (.ok v, s'') → Is v p →
      ToPrim h (.obj o) s (.ok p) s''
  | object {o s f s' i s''} : W.get o .toPrimitive s = (.ok (.obj f), s') →
      W.callable f = true →
      W.call f (.obj o) [.str (.units (ascii (hintStr h)))] s' = (.ok (.obj i), s'') →
      ToPrim h (.obj o) s (.error .typeError) s''

/-- Conversion of one operand: ToPrimitive with a hint, then a function of the primitive value. -/
inductive Conv {α : Type} (h : Hint) (f : P → Except Exc α) (a : V) : σ → Except Exc α → σ → Prop
  | err {s e s'} : ToPrim W h a s (.error e) s' → Conv h f a s (.error e) s'
  | val {s p s'} : ToPrim W h a s (.ok p) s' → Conv h f a s (f p) s'

/-- A binary operator: the left operand is converted, then the right one, and then the result
depends on the two results (and `Q` says how). -/
inductive Binary {α β : Type} (h : Hint) (f : P → Except Exc α) (Q : α → α → Except Exc β → Prop)
    (a b : V) : σ → Except Exc β → σ → Prop
  | left {s e s'} : Conv W h f a s (.error e) s' → Binary h f Q a b s (.error e) s'
  | right {s x s' e s''} : Conv W h f a s (.ok x) s' → Conv W h f b s' (.error e) s'' →
      Binary h f Q a b s (.error e) s''
  | both {s x s' y s'' r} : Conv W h f a s (.ok x) s' → Conv W h f b s' (.ok y) s'' → Q x y r →
      Binary h f Q a b s r s''

/-! ### The operators -/

/-- Two results agree: both are the same exception, or two values related by `R`. -/
def Agree {α β : Type} (R : α → β → Prop) (r : Except Exc α) (r' : Except Exc β) : Prop :=
  match r, r' with
  | .ok v, .ok p => R v p
  | .error e, .error e' => e = e'
  | _, _ => False

/-- An operator on two Numeric values: of the same type, or a TypeError. -/
def numericResult (fn : Dbl → Dbl → Dbl) (fb : Big → Big → Except Exc Big) :
    Numeric → Numeric → Except Exc P
  | .n x, .n y => .ok (.num (fn x y))
  | .b x, .b y => (fb x y).map .big
  | _, _ => .error .typeError

/-- Addition of primitive values: if one is a string, concatenation; the left operand is converted
first. -/
def addP (p q : P) : Except Exc P :=
  if p.isStr || q.isStr then
    (strOf W p).bind fun a => (strOf W q).bind fun b => .ok (.str (a ++ b))
  else
    (numericOf W p).bind fun a => (numericOf W q).bind fun b =>
      numericResult W.nadd (fun x y => .ok (W.badd x y)) a b

/-- `a + b`. -/
def Add (a b : V) : σ → Except Exc P → σ → Prop :=
  Binary W .none .ok (fun p q r => r = addP W p q) a b

/-- `a - b` and the other arithmetic operators. -/
def Arith (op : NOp) (a b : V) : σ → Except Exc P → σ → Prop :=
  Binary W .number (numericOf W) (fun x y r => r = numericResult (W.nbin op) (W.bbin op) x y) a b

/-- The result of a unary operator. -/
def unaryP (op : UOp) (p : P) : Except Exc P :=
  match numericOf W p with
  | .ok (.n x) => .ok (.num (W.nun op x))
  | .ok (.b x) => .ok (.big (W.bun op x))
  | .error e => .error e

/-- Unary operators. -/
def Unary (op : UOp) (a : V) : σ → Except Exc P → σ → Prop :=
  Conv W .number (unaryP W op) a

/-- ToPropertyKey: a symbol or a string. -/
def keyP (p : P) : Except Exc P :=
  match p with
  | .sym i => .ok (.sym i)
  | p => (strOf W p).map .str

/-- A truth value decides a statement. -/
def Decides (r : Except Exc Bool) (A : Prop) : Prop := ∃ b, r = .ok b ∧ (b = true ↔ A)

/-- A relational operator on primitive values. -/
def RelP (rl : Rel) (p q : P) (r : Except Exc Bool) : Prop :=
  match p, q with
  | .str a, .str b => Decides r (rl.OnStr a b)
  | .str a, .big y => Decides r (∃ x, W.strBig a = some x ∧ rl.On (extB x.1) (extB y.1))
  | .big x, .str b => Decides r (∃ y, W.strBig b = some y ∧ rl.On (extB x.1) (extB y.1))
  | p, q =>
    match numericOf W p, numericOf W q with
    | .error e, _ => r = .error e
    | .ok _, .error e => r = .error e
    | .ok x, .ok y => Decides r (rl.On x.ext y.ext)

/-- `a < b`, `a <= b`, `a > b`, `a >= b`, with the hint for the conversion of objects (the standard
says `number`). -/
def Relational (h : Hint) (rl : Rel) (a b : V) : σ → Except Exc Bool → σ → Prop :=
  Binary W h .ok (RelP W rl) a b

/-- The conversion of the operand does not depend on the difference between the hints `default` and
`number`. -/
def HintFree (a : V) : Prop :=
  ∀ s r s', ToPrim W .none a s r s' ↔ ToPrim W .number a s r s'

/-! ### Equality -/

/-- Equality of primitive values in the sense of `==`. -/
def EqP (p q : P) : Prop :=
  match p, q with
  | .undef, .undef => True
  | .undef, .null => True
  | .null, .undef => True
  | .null, .null => True
  | .str a, .str b => a = b
  | .sym a, .sym b => a = b
  | .bool a, .bool b => a = b
  | .str a, .big y => ∃ x, W.strBig a = some x ∧ (extB x.1).Eq (extB y.1)
  | .big x, .str b => ∃ y, W.strBig b = some y ∧ (extB x.1).Eq (extB y.1)
  | .undef, _ => False
  | _, .undef => False
  | .null, _ => False
  | _, .null => False
  | p, q => ∃ x y, numericOf W p = .ok x ∧ numericOf W q = .ok y ∧ x.ext.Eq y.ext

/-- `a == b`. -/
inductive Loose : V → V → σ → Except Exc Bool → σ → Prop
  | prims {a p b q s r} : Is a p → Is b q → Decides r (EqP W p q) → Loose a b s r s
  | objs {i j s r} : Decides r (i = j) → Loose (.obj i) (.obj j) s r s
  | nullL {a j s} : a = .undef ∨ a = .null → Loose a (.obj j) s (.ok false) s
  | nullR {i b s} : b = .undef ∨ b = .null → Loose (.obj i) b s (.ok false) s
  | rightErr {a p j s e s'} : Is a p → p ≠ .undef → p ≠ .null →
      ToPrim W .none (.obj j) s (.error e) s' → Loose a (.obj j) s (.error e) s'
  | right {a p j s q s' r} : Is a p → p ≠ .undef → p ≠ .null →
      ToPrim W .none (.obj j) s (.ok q) s' → Decides r (EqP W p q) → Loose a (.obj j) s r s'
  | leftErr {i b q s e s'} : Is b q → q ≠ .undef → q ≠ .null →
      ToPrim W .none (.obj i) s (.error e) s' → Loose (.obj i) b s (.error e) s'
  | left {i b q s p s' r} : Is b q → q ≠ .undef → q ≠ .null →
      ToPrim W .none (.obj i) s (.ok p) s' → Decides r (EqP W p q) → Loose (.obj i) b s r s'

end

/-- Equality of values of the same type, with a given equality of numbers. -/
inductive SameTy (N : Num → Num → Prop) : V → V → Prop
  | undef : SameTy N .undef .undef
  | null : SameTy N .null .null
  | bool (b : Bool) : SameTy N (.bool b) (.bool b)
  | num {a b : Dbl} : N a.1 b.1 → SameTy N (.num a) (.num b)
  | str {a b : SV} : a.chars = b.chars → SameTy N (.str a) (.str b)
  | sym (i : Nat) : SameTy N (.sym i) (.sym i)
  | big {a b : Big} : a.1.toInt = b.1.toInt → SameTy N (.big a) (.big b)
  | obj (i : Nat) : SameTy N (.obj i) (.obj i)

/-- `===` on numbers: the same mathematical value. -/
def NumStrict (a b : Num) : Prop := (ext a).Eq (ext b)

/-- SameValueZero on numbers: a NaN is the same as a NaN. -/
def NumZero (a b : Num) : Prop := (ext a).Eq (ext b) ∨ a = .nan ∧ b = .nan

/-- The sign of a zero. -/
def ZeroSign (a : Num) (neg : Bool) : Prop := ∃ e, a = .fin neg 0 e

/-- SameValue on numbers: and the two zeros differ. -/
def NumSame (a b : Num) : Prop :=
  NumZero a b ∧ ∀ s t, ZeroSign a s → ZeroSign b t → s = t

/-- The values which are not true: undefined, null, false, the zeros, NaN, the empty string and the
big integer zero. -/
def Falsy : V → Prop
  | .undef => True
  | .null => True
  | .bool b => b = false
  | .num n => n.1 = .nan ∨ (ext n.1).Eq (.fin 0)
  | .str s => s.chars = []
  | .big x => x.1.toInt = 0
  | .sym _ => False
  | .obj _ => False

end Verif.Operators
