import Verif.Model.Json
/-
What C47 and C48 mean, independently of the code: the grammar of JSON texts (ECMA-404, RFC 8259)
and the values they denote.

The grammar has a parameter, the set of deviations from JSON that are allowed.  With the empty set
it is the grammar of JSON.  The other rules describe what this engine accepts besides.

Of the model only the type of values is used.  What a decimal numeral denotes, the negative of a
number, and defining a property of an object are parameters.
-/
namespace Verif.Json.Spec

/-- Deviations from JSON. -/
inductive Dev where
  /-- A comma in front of `]` or `}`. -/
  | comma
  /-- A name as the key of a property. -/
  | key
  /-- A plus sign, or a minus sign that is not directly in front of a numeral. -/
  | sign
  /-- `NaN` and `Infinity`. -/
  | word
  /-- Escape sequences in names. -/
  | name
  /-- White space other than space, tab, line feed and carriage return. -/
  | space
  /-- Comments. -/
  | comment
  /-- Strings in single quotes or back quotes. -/
  | quote
  /-- Control characters in strings. -/
  | control
  /-- Escape sequences which JSON does not have. -/
  | escape
  /-- Numerals which JSON does not have. -/
  | number
deriving DecidableEq

/-- The parameters. -/
structure Sem (F : Type) where
  /-- The number denoted by a decimal numeral without a sign. -/
  number : List Nat → F
  neg : F → F
  /-- The object with a property defined, or redefined. -/
  create : List (List Nat × Val F) → List Nat → Val F → List (List Nat × Val F)
  /-- Characters counted as white space, characters of names. -/
  white : Nat → Bool
  cont : Nat → Bool

/-! ### Characters -/

/-- Code units to code points. -/
def codePoints : List Nat → List Nat
  | [] => []
  | [c] => [c]
  | c :: d :: cs =>
    if (0xd800 ≤ c ∧ c ≤ 0xdbff) ∧ (0xdc00 ≤ d ∧ d ≤ 0xdfff) then
      (0x10000 + (c - 0xd800) * 0x400 + (d - 0xdc00)) :: codePoints cs
    else c :: codePoints (d :: cs)

/-- A code point to code units. -/
def utf16 (c : Nat) : List Nat :=
  if c < 0x10000 then [c] else [0xd800 + (c - 0x10000) / 0x400, 0xdc00 + (c - 0x10000) % 0x400]

/-- The ends of lines are line feeds. -/
def lines : List Nat → List Nat
  | [] => []
  | [c] => if c = 13 then [10] else [c]
  | c :: d :: cs =>
    if c = 13 then (if d = 10 then 10 :: lines cs else 10 :: lines (d :: cs))
    else c :: lines (d :: cs)

def IsDigit (c : Nat) : Prop := 48 ≤ c ∧ c ≤ 57

/-- The value of a hexadecimal digit. -/
def IsHex (c v : Nat) : Prop :=
  48 ≤ c ∧ c ≤ 57 ∧ v = c - 48 ∨ 97 ≤ c ∧ c ≤ 102 ∧ v = c - 87 ∨ 65 ≤ c ∧ c ≤ 70 ∧ v = c - 55

/-- The ends of lines. -/
def IsLine (c : Nat) : Prop := c = 10 ∨ c = 13 ∨ c = 0x2028 ∨ c = 0x2029

/-- The white space of JSON. -/
def IsSpace (c : Nat) : Prop := c = 32 ∨ c = 9 ∨ c = 10 ∨ c = 13

variable {F : Type}

/-- White space between tokens. -/
inductive Space (D : Dev → Prop) (S : Sem F) : List Nat → Prop where
  | nil : Space D S []
  | char {c t} : IsSpace c → Space D S t → Space D S (c :: t)
  | other {c t} : D .space → S.white c = true → Space D S t → Space D S (c :: t)
  | line {m c t} : D .comment → (∀ x ∈ m, ¬ IsLine x) → IsLine c → Space D S t →
      Space D S (47 :: 47 :: (m ++ c :: t))
  | block {m t} : D .comment → Space D S t → Space D S (47 :: 42 :: (m ++ 42 :: 47 :: t))

/-! ### Strings -/

/-- `\" \\ \/ \b \f \n \r \t`. -/
def Escape (e v : Nat) : Prop :=
  e = 34 ∧ v = 34 ∨ e = 92 ∧ v = 92 ∨ e = 47 ∧ v = 47 ∨ e = 98 ∧ v = 8 ∨ e = 102 ∧ v = 12 ∨
  e = 110 ∧ v = 10 ∨ e = 114 ∧ v = 13 ∨ e = 116 ∧ v = 9

/-- Hexadecimal digits and braces. -/
def EscChar (c : Nat) : Prop := (∃ v, IsHex c v) ∨ c = 123 ∨ c = 125

/-- Four hexadecimal digits in front. -/
def FourHex (l : List Nat) : Prop :=
  ∃ a b c d r w x y z, l = a :: b :: c :: d :: r ∧ IsHex a w ∧ IsHex b x ∧ IsHex c y ∧ IsHex d z

/-- An escape sequence which JSON does not have, and what follows. -/
def OddEscape (e : Nat) (m t : List Nat) : Prop :=
  (∀ v, ¬ Escape e v) ∧ (∀ c ∈ m, EscChar c) ∧ ¬ (e = 117 ∧ FourHex (m ++ t))

/-- The characters between the quotes, and the code units they denote. -/
inductive Chars (D : Dev → Prop) (q : Nat) : List Nat → List Nat → Prop where
  | nil : Chars D q [] []
  | raw {c t s} : c ≠ q → c ≠ 92 → (32 ≤ c ∨ D .control) → Chars D q t s →
      Chars D q (c :: t) (utf16 c ++ s)
  | esc {e v t s} : Escape e v → Chars D q t s → Chars D q (92 :: e :: t) (v :: s)
  | hex {a b c d w x y z t s} : IsHex a w → IsHex b x → IsHex c y → IsHex d z → Chars D q t s →
      Chars D q (92 :: 117 :: a :: b :: c :: d :: t) ((((w * 16 + x) * 16 + y) * 16 + z) :: s)
  | odd {e m x t s} : D .escape → OddEscape e m t → Chars D q t s →
      Chars D q (92 :: e :: (m ++ t)) (x ++ s)

/-- A string with its quotes. -/
def Str (D : Dev → Prop) (t s : List Nat) : Prop :=
  ∃ q b, t = q :: (b ++ [q]) ∧ (q = 34 ∨ D .quote ∧ (q = 39 ∨ q = 96)) ∧ Chars D q b s

/-! ### Numerals -/

def IsInt (t : List Nat) : Prop :=
  t = [48] ∨ ∃ d ds, t = d :: ds ∧ 49 ≤ d ∧ d ≤ 57 ∧ ∀ c ∈ ds, IsDigit c

def IsFrac (t : List Nat) : Prop :=
  t = [] ∨ ∃ ds, t = 46 :: ds ∧ ds ≠ [] ∧ ∀ c ∈ ds, IsDigit c

def IsExp (t : List Nat) : Prop :=
  t = [] ∨ ∃ e sg ds, t = e :: (sg ++ ds) ∧ (e = 101 ∨ e = 69) ∧ (sg = [] ∨ sg = [43] ∨ sg = [45]) ∧
    ds ≠ [] ∧ ∀ c ∈ ds, IsDigit c

/-- A numeral of JSON without the minus sign. -/
def IsNumber (t : List Nat) : Prop := ∃ i f e, t = i ++ f ++ e ∧ IsInt i ∧ IsFrac f ∧ IsExp e

/-- Characters of numerals. -/
def NumChar (c : Nat) : Prop :=
  IsDigit c ∨ 97 ≤ c ∧ c ≤ 122 ∨ 65 ≤ c ∧ c ≤ 90 ∨ c = 95 ∨ c = 46 ∨ c = 43 ∨ c = 45

/-- A numeral which JSON does not have: it begins with a digit or a point; it has an underscore, or
the suffix of a BigInt, or a zero in front, or no digit in front of the point or behind it. -/
def OddNumber (t : List Nat) : Prop :=
  (∀ c ∈ t, NumChar c) ∧
  ((∃ r, t = 46 :: r) ∨ (∃ d r, IsDigit d ∧ t = d :: r)) ∧
  (95 ∈ t ∨ (∃ r, t = r ++ [110]) ∨ (∃ r, t = 46 :: r) ∨ (∃ c r, t = 48 :: c :: r ∧ c ≠ 46 ∧ c ≠ 101 ∧ c ≠ 69) ∨
    (∃ a b, t = a ++ 46 :: b ∧ ∀ c ∈ b.head?, ¬ IsDigit c))

/-- A numeral and its value. -/
def Number (D : Dev → Prop) (S : Sem F) (t : List Nat) (v : Val F) : Prop :=
  IsNumber t ∧ v = .num (S.number t) ∨
  D .number ∧ OddNumber t ∧ ((∃ x, v = .num x) ∨ ∃ b ds, v = .big b ds)

/-! ### Words -/

/-- The characters of a name and what it spells. -/
inductive Name (D : Dev → Prop) (S : Sem F) : List Nat → List Nat → Prop where
  | nil : Name D S [] []
  | raw {c t s} : S.cont c = true → Name D S t s → Name D S (c :: t) (utf16 c ++ s)
  | esc {m x t s} : D .name → (∀ c ∈ m, EscChar c) → Name D S t s →
      Name D S (92 :: 117 :: (m ++ t)) (utf16 x ++ s)

/-- `null`, `true`, `false`. -/
def Literal (t : List Nat) (v : Val F) : Prop :=
  t = [110, 117, 108, 108] ∧ v = .null ∨ t = [116, 114, 117, 101] ∧ v = .bool true ∨
  t = [102, 97, 108, 115, 101] ∧ v = .bool false

/-- `Infinity`, `NaN`. -/
def OddWord (s : List Nat) : Prop := s = [73, 110, 102, 105, 110, 105, 116, 121] ∨ s = [78, 97, 78]

/-! ### Values -/

/-- The parts of a text: a value, the rest of an array, the rest of an object.  `first`: nothing has
been read since the bracket; what has been read before is the second argument. -/
inductive Kind (F : Type) where
  | value
  | items (first : Bool) (acc : List (Val F))
  | members (first : Bool) (acc : List (List Nat × Val F))

/-- White space is in front of the tokens. -/
inductive G (D : Dev → Prop) (S : Sem F) : Kind F → List Nat → Val F → Prop where
  | literal {w t v} : Space D S w → Literal t v → G D S .value (w ++ t) v
  | spelled {w t s v} : D .name → Space D S w → t ≠ [] → Name D S t s → Literal s v →
      G D S .value (w ++ t) v
  | word {w t s x} : D .word → Space D S w → t ≠ [] → Name D S t s → OddWord s →
      G D S .value (w ++ t) (.num x)
  | str {w t s} : Space D S w → Str D t s → G D S .value (w ++ t) (.str s)
  | num {w t v} : Space D S w → Number D S t v → G D S .value (w ++ t) v
  | neg {w t} : Space D S w → IsNumber t → G D S .value (w ++ 45 :: t) (.num (S.neg (S.number t)))
  | sign {w c w' t v} : D .sign → Space D S w → c = 43 ∨ c = 45 → Space D S w' →
      ¬ (c = 45 ∧ w' = [] ∧ IsNumber t) →
      (∃ v', Number D S t v') ∨ (t ≠ [] ∧ ∃ s, Name D S t s ∧ OddWord s) →
      ((∃ x, v = .num x) ∨ ∃ b ds, v = .big b ds) → G D S .value (w ++ c :: (w' ++ t)) v
  | arr {w t v} : Space D S w → G D S (.items true []) t v → G D S .value (w ++ 91 :: t) v
  | obj {w t v} : Space D S w → G D S (.members true []) t v → G D S .value (w ++ 123 :: t) v
  | itemsClose {first acc w} : first = true ∨ D .comma → Space D S w →
      G D S (.items first acc) (w ++ [93]) (.arr acc)
  | itemsLast {first acc a v w} : G D S .value a v → Space D S w →
      G D S (.items first acc) (a ++ (w ++ [93])) (.arr (acc ++ [v]))
  | itemsCons {first acc a v w b u} : G D S .value a v → Space D S w →
      G D S (.items false (acc ++ [v])) b u → G D S (.items first acc) (a ++ (w ++ 44 :: b)) u
  | membersClose {first acc w} : first = true ∨ D .comma → Space D S w →
      G D S (.members first acc) (w ++ [125]) (.obj acc)
  | membersLast {first acc w k s w' a v w''} : Space D S w →
      (Str D k s ∨ D .key ∧ k ≠ [] ∧ Name D S k s) → Space D S w' →
      G D S .value a v → Space D S w'' →
      G D S (.members first acc) (w ++ (k ++ (w' ++ 58 :: (a ++ (w'' ++ [125])))))
        (.obj (S.create acc s v))
  | membersCons {first acc w k s w' a v w'' b u} : Space D S w →
      (Str D k s ∨ D .key ∧ k ≠ [] ∧ Name D S k s) → Space D S w' →
      G D S .value a v → Space D S w'' → G D S (.members false (S.create acc s v)) b u →
      G D S (.members first acc) (w ++ (k ++ (w' ++ 58 :: (a ++ (w'' ++ 44 :: b))))) u

/-- A text and the value it denotes: a value and white space.  With comments allowed, the last line
may be one. -/
def Text (D : Dev → Prop) (S : Sem F) (t : List Nat) (v : Val F) : Prop :=
  ∃ a w, t = a ++ w ∧ G D S .value a v ∧
    (Space D S w ∨ D .comment ∧ ∃ w' m, w = w' ++ 47 :: 47 :: m ∧ Space D S w' ∧ ∀ x ∈ m, ¬ IsLine x)

/-- No deviation is allowed: JSON. -/
def strict : Dev → Prop := fun _ => False

/-- One deviation is allowed. -/
def only (d : Dev) : Dev → Prop := fun x => x = d

/-- All deviations are allowed. -/
def loose : Dev → Prop := fun _ => True

end Verif.Json.Spec
