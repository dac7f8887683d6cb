import Verif.Model.Lex
import Verif.Spec.Json

/-!
What C89 means, independently of the code: the lexical grammar of ECMAScript (ECMA-262, clause 12)
over lists of code points.  Of the model only the types of tokens are used.  Which characters
outside ASCII are white space and parts of names is a parameter (`Uni`).

Ends of lines: a carriage return, alone or with a line feed behind it, is read as a line feed
(`Json.Spec.lines`).  The standard asks for this in templates (12.9.6.1); elsewhere a line feed can
stand in its place.
-/
namespace Verif.Lex.Spec
open Json (Uni)
open Json.Spec (IsDigit IsHex IsLine utf16)

def IsOctal (c : Nat) : Prop := 48 ≤ c ∧ c ≤ 55

/-- The next character is in a set. -/
def Next (p : Nat → Prop) (t : List Nat) : Prop := ∃ c r, t = c :: r ∧ p c

/-! ### White space and comments (12.2-12.4) -/

def IsWhite (U : Uni) (c : Nat) : Prop :=
  c = 9 ∨ c = 11 ∨ c = 12 ∨ c = 32 ∨ c = 0xfeff ∨ IsLine c ∨ 128 ≤ c ∧ U.white c = true

/-- The two separators of lines are white space for ICU. -/
def Fits (U : Uni) : Prop := U.white 0x2028 = true ∧ U.white 0x2029 = true

/-- The text of a comment in front of the first `*/`. -/
def Closes (m : List Nat) : Prop := ∀ a b, m ++ [42, 47] = a ++ 42 :: 47 :: b → b = []

/-- What stands between tokens; `fin` says that nothing comes behind. -/
inductive Gap (U : Uni) : Bool → List Nat → Prop
  | nil {fin} : Gap U fin []
  | white {fin c t} : IsWhite U c → Gap U fin t → Gap U fin (c :: t)
  | line {fin m c t} : (∀ x ∈ m, ¬ IsLine x) → IsLine c → Gap U fin t →
      Gap U fin (47 :: 47 :: (m ++ c :: t))
  | last {m} : (∀ x ∈ m, ¬ IsLine x) → Gap U true (47 :: 47 :: m)
  | block {fin m t} : Closes m → Gap U fin t → Gap U fin (47 :: 42 :: (m ++ 42 :: 47 :: t))

/-- A token begins here, or the text ends. -/
def NoGap (U : Uni) (t : List Nat) : Prop :=
  ¬ Next (IsWhite U) t ∧ (∀ r, t ≠ 47 :: 47 :: r) ∧ ∀ r, t ≠ 47 :: 42 :: r

/-- A comment in the first line (12.5). -/
inductive Hashbang : Bool → List Nat → Prop
  | none {fin} : Hashbang fin []
  | line {fin m c} : (∀ x ∈ m, ¬ IsLine x) → IsLine c → Hashbang fin (35 :: 33 :: (m ++ [c]))
  | last {m} : (∀ x ∈ m, ¬ IsLine x) → Hashbang true (35 :: 33 :: m)

/-! ### Escape sequences (12.9.4) -/

/-- `HexDigits`, in front of which the value is `a`. -/
inductive Hexes : Nat → List Nat → Nat → Prop
  | nil {a} : Hexes a [] a
  | cons {a c v ds n} : IsHex c v → Hexes (16 * a + v) ds n → Hexes a (c :: ds) n

/-- `SingleEscapeCharacter` with its value (table 36). -/
def Single (e v : Nat) : Prop :=
  e = 39 ∧ v = 39 ∨ e = 34 ∧ v = 34 ∨ e = 92 ∧ v = 92 ∨ e = 98 ∧ v = 8 ∨ e = 102 ∧ v = 12 ∨
  e = 110 ∧ v = 10 ∨ e = 114 ∧ v = 13 ∨ e = 116 ∧ v = 9 ∨ e = 118 ∧ v = 11

/-- `UnicodeEscapeSequence`; with `E` there need not be digits in the braces. -/
inductive UniEsc (E : Prop) : List Nat → Nat → Prop
  | four {ds n} : ds.length = 4 → Hexes 0 ds n → UniEsc E (117 :: ds) n
  | braces {ds n} : (ds ≠ [] ∨ E) → Hexes 0 ds n → n ≤ 0x10ffff → UniEsc E (117 :: 123 :: (ds ++ [125])) n

/-- The escape sequences (behind the backslash) of strings and templates, with what follows them,
and their values.  `LineContinuation` is one of them. -/
inductive Esc (E : Prop) : List Nat → List Nat → List Nat → Prop
  | single {e v t} : Single e v → Esc E [e] t [v]
  | other {c t} : (∀ v, ¬ Single c v) → ¬ IsDigit c → c ≠ 120 → c ≠ 117 → ¬ IsLine c →
      Esc E [c] t (utf16 c)
  | line {c t} : IsLine c → Esc E [c] t []
  | zero {t} : ¬ Next IsDigit t → Esc E [48] t [0]
  | hex {ds n t} : ds.length = 2 → Hexes 0 ds n → Esc E (120 :: ds) t [n]
  | uni {m n t} : UniEsc E m n → Esc E m t (utf16 n)

/-- `LegacyOctalEscapeSequence` and `NonOctalDecimalEscapeSequence`. -/
inductive Legacy : List Nat → List Nat → Nat → Prop
  | zero {t} : Next (fun c => c = 56 ∨ c = 57) t → Legacy [48] t 0
  | one {a t} : 49 ≤ a → a ≤ 55 → ¬ Next IsOctal t → Legacy [a] t (a - 48)
  | two {a b t} : 48 ≤ a → a ≤ 51 → IsOctal b → ¬ Next IsOctal t →
      Legacy [a, b] t ((a - 48) * 8 + (b - 48))
  | high {a b t} : 52 ≤ a → a ≤ 55 → IsOctal b → Legacy [a, b] t ((a - 48) * 8 + (b - 48))
  | three {a b c t} : 48 ≤ a → a ≤ 51 → IsOctal b → IsOctal c →
      Legacy [a, b, c] t ((a - 48) * 64 + (b - 48) * 8 + (c - 48))
  | dec {a t} : a = 56 ∨ a = 57 → Legacy [a] t a

/-! ### Strings (12.9.4) -/

/-- The characters between the quotes, the code units they denote (SV), is there an escape sequence,
is there a legacy one. -/
inductive Chars (E : Prop) (q : Nat) : List Nat → List Nat → Bool → Bool → Prop
  | nil : Chars E q [] [] false false
  | char {c t s e l} : c ≠ q → c ≠ 92 → c ≠ 10 → c ≠ 13 → Chars E q t s e l →
      Chars E q (c :: t) (utf16 c ++ s) e l
  | esc {m v t s e l} : Esc E m t v → Chars E q t s e l → Chars E q (92 :: (m ++ t)) (v ++ s) true l
  | legacy {m v t s e l} : Legacy m t v → Chars E q t s e l → Chars E q (92 :: (m ++ t)) (v :: s) true true

/-! ### Templates (12.9.6) -/

/-- `NotEscapeSequence`: a digit, `x` or `u` that begins no escape sequence. -/
def NotEsc (E : Prop) (t : List Nat) : Prop :=
  ∃ c r, t = c :: r ∧
    (c = 48 ∧ Next IsDigit r ∨ 49 ≤ c ∧ c ≤ 57 ∨
     c = 120 ∧ (¬ ∃ a b n, a ++ b = r ∧ a.length = 2 ∧ Hexes 0 a n) ∨
     c = 117 ∧ ¬ ∃ a b n, 117 :: (a ++ b) = t ∧ UniEsc E (117 :: a) n)

/-- `TemplateCharacters` and their TV; it is undefined as soon as there is a `NotEscapeSequence`.
Their TRV is the text itself. -/
inductive TChars (E : Prop) : List Nat → Option (List Nat) → Prop
  | nil : TChars E [] (some [])
  | char {c t s} : c ≠ 96 → c ≠ 92 → (c = 36 → ¬ Next (· = 123) t) → TChars E t s →
      TChars E (c :: t) (s.map (utf16 c ++ ·))
  | esc {m v t s} : Esc E m t v → TChars E t s → TChars E (92 :: (m ++ t)) (s.map (v ++ ·))
  | bad {t s} : NotEsc E t → TChars E t s → TChars E (92 :: t) none

/-! ### Regular expressions (12.9.5) -/

/-- `RegularExpressionChars`, and with `true` `RegularExpressionClassChars` up to the bracket.  `P` says
which characters may follow a backslash in a class; for the standard all of them. -/
inductive ReChars (P : Nat → Prop) : Bool → List Nat → Prop
  | nil : ReChars P false []
  | char {c t} : ¬ IsLine c → c ≠ 92 → c ≠ 47 → c ≠ 91 → ReChars P false t → ReChars P false (c :: t)
  | esc {c t} : ¬ IsLine c → ReChars P false t → ReChars P false (92 :: c :: t)
  | cls {t} : ReChars P true t → ReChars P false (91 :: t)
  | clsChar {c t} : ¬ IsLine c → c ≠ 93 → c ≠ 92 → ReChars P true t → ReChars P true (c :: t)
  | clsEsc {c t} : ¬ IsLine c → P c → ReChars P true t → ReChars P true (92 :: c :: t)
  | clsEnd {t} : ReChars P false t → ReChars P true (93 :: t)

/-- `RegularExpressionBody`: it is not empty and does not begin with a star (else it is a comment). -/
def ReBody (P : Nat → Prop) (t : List Nat) : Prop := ReChars P false t ∧ t ≠ [] ∧ ∀ r, t ≠ 42 :: r

/-! ### Names (12.7) -/

def IsStart (U : Uni) (c : Nat) : Prop :=
  c = 36 ∨ c = 95 ∨ 65 ≤ c ∧ c ≤ 90 ∨ 97 ≤ c ∧ c ≤ 122 ∨ 128 ≤ c ∧ U.idStart c = true

def IsPart (U : Uni) (c : Nat) : Prop :=
  IsStart U c ∨ IsDigit c ∨ c = 0x200c ∨ c = 0x200d ∨ 128 ≤ c ∧ U.idCont c = true

/-- `IdentifierPart`s, the code units they denote, is there an escape sequence. -/
inductive Parts (U : Uni) : List Nat → List Nat → Bool → Prop
  | nil : Parts U [] [] false
  | char {c t s e} : IsPart U c → Parts U t s e → Parts U (c :: t) (utf16 c ++ s) e
  | esc {m n t s e} : UniEsc False m n → IsPart U n → Parts U t s e →
      Parts U (92 :: (m ++ t)) (utf16 n ++ s) true

/-- `IdentifierName`. -/
inductive Name (U : Uni) : List Nat → List Nat → Bool → Prop
  | char {c t s e} : IsStart U c → Parts U t s e → Name U (c :: t) (utf16 c ++ s) e
  | esc {m n t s e} : UniEsc False m n → IsStart U n → Parts U t s e →
      Name U (92 :: (m ++ t)) (utf16 n ++ s) true

/-- A name ends here. -/
def NameEnd (U : Uni) (t : List Nat) : Prop :=
  ¬ Next (IsPart U) t ∧ ¬ ∃ r, t = 92 :: 117 :: r

/-- `ReservedWord` (12.7.2). -/
def reserved : List String :=
  ["await", "break", "case", "catch", "class", "const", "continue", "debugger", "default", "delete",
   "do", "else", "enum", "export", "extends", "false", "finally", "for", "function", "if", "import",
   "in", "instanceof", "new", "null", "return", "super", "switch", "this", "throw", "true", "try",
   "typeof", "var", "void", "while", "with", "yield"]

/-- The words that are reserved in strict code (12.7.2, note). -/
def strictReserved : List String :=
  ["let", "static", "implements", "interface", "package", "private", "protected", "public"]

/-- The other words which the grammar of the standard contains (12.7.2, note), except `accessor` and such
that no production of this edition has. -/
def contextual : List String := ["as", "async", "from", "get", "meta", "of", "set", "target"]

/-- What is known about a word. -/
def wordOf (s : List Nat) : Option Word :=
  if s ∈ reserved.map chars then some .reserved
  else if s ∈ strictReserved.map chars then some .strict
  else if s ∈ contextual.map chars then some .known
  else none

/-! ### Punctuators (12.8) -/

def puncts : List String :=
  ["{", "(", ")", "[", "]", ".", "...", ";", ",", "<", ">", "<=", ">=", "==", "!=", "===", "!==",
   "+", "-", "*", "%", "**", "++", "--", "<<", ">>", ">>>", "&", "|", "^", "!", "~", "&&", "||", "??",
   "?", ":", "=", "+=", "-=", "*=", "%=", "**=", "<<=", ">>=", ">>>=", "&=", "|=", "^=", "&&=", "||=",
   "??=", "=>", "}", "/", "/=", "?."]

/-- `p` is a punctuator in front of `t`: `OptionalChainingPunctuator` has a condition. -/
def PunctAt (p t : List Nat) : Prop :=
  p ∈ puncts.map chars ∧ (p = [63, 46] → ¬ Next IsDigit t)

/-- The longest punctuator at the beginning of a text. -/
def Longest (p t : List Nat) : Prop :=
  PunctAt p t ∧ ∀ p' t', p' ++ t' = p ++ t → PunctAt p' t' → p'.length ≤ p.length

/-! ### Numbers (12.9.3) -/

/-- Digits with separators, and the digits alone. -/
inductive Sep (p : Nat → Prop) : List Nat → List Nat → Prop
  | one {c} : p c → Sep p [c] [c]
  | cons {c t ds} : p c → Sep p t ds → Sep p (c :: t) (c :: ds)
  | sep {c t ds} : p c → Sep p t ds → Sep p (c :: 95 :: t) (c :: ds)

def IsBin (c : Nat) : Prop := c = 48 ∨ c = 49
def IsHexDigit (c : Nat) : Prop := ∃ v, IsHex c v

/-- `DecimalIntegerLiteral` without leading zeros. -/
def DecInt (t ds : List Nat) : Prop :=
  t = [48] ∧ ds = [48] ∨ Sep IsDigit t ds ∧ ∀ r, t ≠ 48 :: r

/-- Digits which are all octal. -/
def Octals (t : List Nat) : Prop := t ≠ [] ∧ ∀ c ∈ t, IsOctal c

/-- `NonOctalDecimalIntegerLiteral`: a zero, and digits among which is an 8 or a 9. -/
def NonOctal (t : List Nat) : Prop := t ≠ [] ∧ (∀ c ∈ t, IsDigit c) ∧ ∃ c ∈ t, ¬ IsOctal c

/-- The fraction. -/
inductive Frac : List Nat → List Nat → Prop
  | none : Frac [] []
  | point : Frac [46] [46]
  | digits {t ds} : Sep IsDigit t ds → Frac (46 :: t) (46 :: ds)

def ExpSign (s : List Nat) : Prop := s = [] ∨ s = [43] ∨ s = [45]

/-- `ExponentPart`. -/
inductive Exp : List Nat → List Nat → Prop
  | none : Exp [] []
  | digits {e s t ds} : e = 101 ∨ e = 69 → ExpSign s → Sep IsDigit t ds →
      Exp (e :: (s ++ t)) (e :: (s ++ ds))

/-- A suffix makes a BigInt of an integer. -/
def Suffix (b : Bool) (t : List Nat) : Prop := b = false ∧ t = [] ∨ b = true ∧ t = [110]

/-- `NumericLiteral`: base, digits, is it a BigInt, is it one of those that strict code cannot
have. -/
inductive Num : List Nat → Nat → List Nat → Bool → Bool → Prop
  | bin {x t ds b n} : x = 98 ∨ x = 66 → Sep IsBin t ds → Suffix b n → Num (48 :: x :: (t ++ n)) 2 ds b false
  | oct {x t ds b n} : x = 111 ∨ x = 79 → Sep IsOctal t ds → Suffix b n → Num (48 :: x :: (t ++ n)) 8 ds b false
  | hex {x t ds b n} : x = 120 ∨ x = 88 → Sep IsHexDigit t ds → Suffix b n →
      Num (48 :: x :: (t ++ n)) 16 ds b false
  | int {t ds b n} : DecInt t ds → Suffix b n → Num (t ++ n) 10 ds b false
  | dec {i di f df e de} : DecInt i di → Frac f df → Exp e de → Num (i ++ f ++ e) 10 (di ++ df ++ de) false false
  | point {t ds e de} : Sep IsDigit t ds → Exp e de → Num (46 :: (t ++ e)) 10 (46 :: (ds ++ de)) false false
  | nonOctal {i f df e de} : NonOctal i → Frac f df → Exp e de →
      Num (48 :: (i ++ f ++ e)) 10 (48 :: (i ++ df ++ de)) false true
  | legacy {t} : Octals t → Num (48 :: t) 8 t false true

/-- A number ends here: no digit, and no beginning of a name, follows, and a point that follows is not
part of it. -/
def NumEnd (U : Uni) (text rest : List Nat) : Prop :=
  ¬ Next (fun c => IsDigit c ∨ IsStart U c) rest ∧
  ∀ r, rest = 46 :: r → ∀ b ds n l, ¬ Num (text ++ [46]) b ds n l

/-- Octal digits with a point or an exponent behind them: the standard has no such number. -/
def OctalPoint (t : List Nat) : Prop :=
  ∃ o c r, t = 48 :: (o ++ c :: r) ∧ Octals o ∧ (c = 46 ∨ c = 101 ∨ c = 69)

/-- In no escape sequence with braces the value in front of the last digit is above the code points. -/
def Small (t : List Nat) : Prop :=
  ∀ a ds c b n, t = a ++ 92 :: 117 :: 123 :: (ds ++ c :: b) → Hexes 0 ds n → IsHexDigit c → n ≤ 0x10ffff

/-! ### Tokens -/

/-- Code units in which every surrogate is part of a pair. -/
inductive Paired : List Nat → Prop
  | nil : Paired []
  | one {c t} : c < 0xd800 ∨ 0xdfff < c → Paired t → Paired (c :: t)
  | pair {c d t} : 0xd800 ≤ c → c ≤ 0xdbff → 0xdc00 ≤ d → d ≤ 0xdfff → Paired t → Paired (c :: d :: t)

/-- The text `w` in front of `rest` is a token.  `div` says that a `/` is an operator here, `cont` that
a brace continues a template.  Deviations: `E` (see `UniEsc`), `P` (see `ReChars`); the standard is
`Token U False (fun _ => True)`. -/
inductive Token (U : Uni) (E : Prop) (P : Nat → Prop) (m : Mode) (cont : Bool) : List Nat → List Nat → Tok → Prop
  | fin : Token U E P m cont [] [] .fin
  | str {q body s e l u rest} : q = 34 ∨ q = 39 → Chars E q body s e l → (u = false ↔ Paired s) →
      Token U E P m cont (q :: (body ++ [q])) rest (.str ⟨s, e, l⟩ u)
  | num {w rest base ds big leg} : Num w base ds big leg → NumEnd U w rest → (m.strict = true → leg = false) →
      Token U E P m cont w rest (.num ⟨base, ds, big, leg⟩)
  | punct {w rest} : Longest w rest → (w = [46] → ¬ Next IsDigit rest) → (m.div = false → ¬ Next (· = 47) w) →
      (cont = true → w ≠ [125]) → Token U E P m cont w rest (.punct w)
  | head {body cooked rest} : TChars E body cooked →
      Token U E P m cont (96 :: (body ++ [36, 123])) rest (.templ true ⟨false, cooked, body.flatMap utf16⟩)
  | plain {body cooked rest} : TChars E body cooked →
      Token U E P m cont (96 :: (body ++ [96])) rest (.templ true ⟨true, cooked, body.flatMap utf16⟩)
  | middle {body cooked rest} : cont = true → TChars E body cooked →
      Token U E P m cont (125 :: (body ++ [36, 123])) rest (.templ false ⟨false, cooked, body.flatMap utf16⟩)
  | tail {body cooked rest} : cont = true → TChars E body cooked →
      Token U E P m cont (125 :: (body ++ [96])) rest (.templ false ⟨true, cooked, body.flatMap utf16⟩)
  | regexp {body flags rest} : m.div = false → ReBody P body → (∀ c ∈ flags, IsPart U c) → ¬ Next (IsPart U) rest →
      Token U E P m cont (47 :: (body ++ 47 :: flags)) rest (.regexp (body.flatMap utf16) (flags.flatMap utf16))
  | priv {w s e rest} : Name U w s e → NameEnd U rest → Token U E P m cont (35 :: w) rest (.priv (35 :: s))
  | ident {w s e rest} : Name U w s e → NameEnd U rest → Token U E P m cont w rest (.ident ⟨s, wordOf s, e⟩)

/-- A token without the zeros in front of a legacy number: they do not change its value. -/
def norm : Tok → Tok
  | .num t => .num { t with text := if t.legacy then t.text.dropWhile (· == 48) else t.text }
  | t => t

/-- The braces that are open behind a token, the innermost first; `true` is the `${` of a template. -/
def after (op : List Bool) : Tok → List Bool
  | .punct w => if w = [123] then false :: op else if w = [125] then op.drop 1 else op
  | .templ true t => if t.last then op else true :: op
  | .templ false t => if t.last then op.drop 1 else op
  | _ => op

/-- What stands in front of the text `r` in which a token begins: a gap, and in front of the first
token also the comment of the first line. -/
def Before (U : Uni) (first : Bool) (g r : List Nat) : Prop :=
  ∃ h b, g = h ++ b ∧ (first = false → h = []) ∧ Hashbang (b ++ r).isEmpty h ∧ Gap U r.isEmpty b ∧ NoGap U r

/-- A text that is divided into tokens, with a relation for the single tokens and for each of them the
mode the parser asks for.  `first` says that the text begins here; `op` are the open braces.  The last
argument is the text behind the tokens. -/
inductive Source (U : Uni) (T : Mode → Bool → List Nat → List Nat → Tok → Prop) :
    Bool → List Bool → List Mode → List Nat → List Tok → List Nat → Prop
  | nil {first op rest} : Source U T first op [] rest [] rest
  | cons {first op m ms g w rest tok toks last} : Before U first g (w ++ rest) →
      T m (op.head? == some true) w rest tok → Source U T false (after op tok) ms rest toks last →
      Source U T first op (m :: ms) (g ++ (w ++ rest)) (tok :: toks) last

/-- The standard. -/
def Std (U : Uni) (m : Mode) (cont : Bool) (w rest : List Nat) (tok : Tok) : Prop :=
  Token U False (fun _ => True) m cont w rest tok

end Verif.Lex.Spec
