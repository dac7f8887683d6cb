import Verif.Model.Strtod

/-!
Model of the conversion of strings to numbers: `parse_string` (`/repo/src/lib/rjs_string.c`:588-708),
which calls the lexical analyser of scripts (`/repo/src/lib/rjs_lex.c`), and of `parseInt`
(`/repo/src/lib/rjs_global_object.c`:176-240) with `rjs_strtoi` (`/repo/src/lib/rjs_strtoi.c`:36-107).

The parts of the analyser shared with JSON (white space and comments, identifiers) are those of
`Verif.Model.Json`.

Numbers.  `Lib` and `strtod` are in `Verif.Model.Strtod`.  The products and sums of `rjs_strtoi`
are made explicit: doubles that are not negative integers are natural numbers, and every operation
rounds to 53 bits (`rnd`), to nearest, ties to even.  Overflow is left to `ofNat`: a natural number
of 2^1024 and more stands for infinity, and stays there.

Simplifications.  An error of the analyser (`lex_error`) sets a flag and the analyser goes on; the
result is NaN in the end (rjs_string.c:691-702), so the model ends at once.  Tokens that are neither
numbers, identifiers, `+` nor `-` give NaN: how strings, templates, regular expressions and private
names are read is left out (the undefined shift of `lex_unicode_escape` can happen in them as in
identifiers, where it is modelled).  `rt->parser` (rjs_lex.c:702) is null.
-/
namespace Verif.StrNum
open Json (Uni Out isDigit isOctal isBinary isHex skip lexIdent)

/-- The nearest natural number with 53 significant bits, ties to even: what an operation of C on
doubles gives. -/
def rnd (n : Nat) : Nat :=
  if n < 2 ^ 53 then n
  else
    let e := n.log2 - 52
    let q := n / 2 ^ e
    let r := n % 2 ^ e
    (if 2 ^ e < 2 * r ∨ (2 * r = 2 ^ e ∧ q % 2 = 1) then q + 1 else q) * 2 ^ e

/-- The value of a digit (rjs_strtoi.c:75-93, `rjs_hex_char_to_number`). -/
def digitVal (c : Nat) : Nat :=
  if 97 ≤ c then c - 97 + 10 else if 65 ≤ c then c - 65 + 10 else c - 48

/-- `d *= base; d += v;` (rjs_strtoi.c:95-96). -/
def accStep (base : Nat) (d c : Nat) : Nat := rnd (rnd (d * base) + digitVal c)

/-- The loop of `rjs_strtoi` (rjs_strtoi.c:72-98) over digits. -/
def acc (base : Nat) (ds : List Nat) : Nat := ds.foldl (accStep base) 0

/-- The input of a string without `RJS_INPUT_FL_CRLF_TO_LF` (`/repo/src/lib/rjs_input.c`:217-250). -/
def points : List Nat → List Nat
  | [] => []
  | [c] => [c]
  | c :: d :: cs =>
    if Json.isLead c && Json.isTrail d then Json.join c d :: points cs else c :: points (d :: cs)

/-- The text of a number token. -/
structure NumTok where
  base : Nat
  text : List Nat
  /-- The value is a BigInt. -/
  isBig : Bool
  deriving DecidableEq

inductive Tok
  | fin
  | num (t : NumTok)
  | plus
  | minus
  | ident (s : List Nat)
  | other
  deriving DecidableEq

/-- The loop over digits with `RJS_LEX_ST_NO_SEP` (rjs_lex.c:530-608); there must be one. -/
def intDigits (base : Nat) (p : Nat → Bool) (cs : List Nat) : Option (Nat × List Nat × List Nat) :=
  match cs.span p with
  | ([], _) => none
  | (ds, rest) => some (base, ds, rest)

/-- The integer part with `RJS_LEX_ST_NO_LEGACY_OCT` (rjs_lex.c:485-608): base, digits, rest. -/
def intPart : List Nat → Option (Nat × List Nat × List Nat)
  | 46 :: cs => some (10, [], 46 :: cs)
  | 48 :: c :: cs =>
    if c = 98 ∨ c = 66 then intDigits 2 isBinary cs
    else if c = 111 ∨ c = 79 then intDigits 8 isOctal cs
    else if c = 120 ∨ c = 88 then intDigits 16 isHex cs
    else if c = 95 then none
    else intDigits 10 isDigit (48 :: c :: cs)
  | cs => intDigits 10 isDigit cs

/-- `legacy_oct` with `RJS_LEX_ST_NO_LEGACY_OCT` (rjs_lex.c:516-519). -/
def legacy : List Nat → Bool
  | 48 :: c :: _ => c == 56 || c == 57
  | _ => false

/-- The fraction (rjs_lex.c:613-639): text and rest. -/
def fracPart : List Nat → List Nat × List Nat
  | 46 :: cs => (46 :: (cs.span isDigit).1, (cs.span isDigit).2)
  | cs => ([], cs)

/-- The sign of the exponent (rjs_lex.c:648-653). -/
def expSign : List Nat → List Nat × List Nat
  | [] => ([], [])
  | c :: cs => if c = 43 ∨ c = 45 then ([c], cs) else ([], c :: cs)

/-- The exponent (rjs_lex.c:641-679). -/
def expPart : List Nat → Option (List Nat × List Nat)
  | [] => some ([], [])
  | c :: cs =>
    if c = 101 ∨ c = 69 then
      match (expSign cs).2.span isDigit with
      | ([], _) => none
      | (ds, rest) => some (c :: ((expSign cs).1 ++ ds), rest)
    else some ([], c :: cs)

/-- Fraction and exponent, unless `RJS_LEX_FL_BIG_INT` is set (rjs_lex.c:612-680). -/
def tail (big : Bool) (base : Nat) (cs : List Nat) : Option (List Nat × List Nat) :=
  if base = 10 ∧ big = false then
    match expPart (fracPart cs).2 with
    | none => none
    | some (t, rest) => some ((fracPart cs).1 ++ t, rest)
  else some ([], cs)

/-- `lex_number` up to the suffix (rjs_lex.c:461-691); `big` is `RJS_LEX_FL_BIG_INT`. -/
def scanNumber (big : Bool) (cs : List Nat) : Option (NumTok × List Nat) :=
  match intPart cs with
  | none => none
  | some (base, ds, r1) =>
    match tail big base r1 with
    | none => none
    | some (t, r2) =>
      if r2.head? = some 110 ∧ big = false ∧ legacy cs = false ∧ t = [] then some (⟨base, ds ++ t, true⟩, r2.drop 1)
      else some (⟨base, ds ++ t, big⟩, r2)

/-- `lex_number` (rjs_lex.c:461-741). -/
def lexNumber (U : Uni) (big : Bool) (cs : List Nat) : Option (NumTok × List Nat) :=
  match scanNumber big cs with
  | none => none
  | some (t, rest) => if Json.ends U rest then some (t, rest) else none

/-- The call of `rjs_strtod` is not defined (rjs_lex.c:728-738; `rjs_strtoi` calls it for base 10); it is made
after an error too. -/
def overflows (big : Bool) (cs : List Nat) : Bool :=
  match scanNumber big cs with
  | none => false
  | some (t, _) => !t.isBig && t.base == 10 && strtod t.text == .undef

/-- The result of `lex_number` as that of a token. -/
def numTok (U : Uni) (big : Bool) (cs : List Nat) : Out Tok :=
  if overflows big cs then .undef
  else match lexNumber U big cs with
    | none => .err
    | some (t, rest) => .ok (.num t) rest

/-- A token that starts here (rjs_lex.c:1347-1418).  `++`, `+=`, `--` and `-=` are tokens too. -/
def tokenAt (U : Uni) (big : Bool) : List Nat → Out Tok
  | [] => .ok .fin []
  | c :: cs =>
    if c = 43 ∨ c = 45 then
      if cs.head? = some c ∨ cs.head? = some 61 then .ok .other cs
      else .ok (if c = 43 then .plus else .minus) cs
    else if c = 46 then
      if (cs.head?.map isDigit).getD false then numTok U big (c :: cs) else .ok .other cs
    else if isDigit c then numTok U big (c :: cs)
    else if c = 92 then
      if cs.head? = some 117 then (lexIdent U (c :: cs)).map .ident else .ok .other cs
    else if U.isStart c then (lexIdent U (c :: cs)).map .ident
    else .ok .other cs

/-- `rjs_lex_get_token` (rjs_lex.c:1279-1432). -/
def token (U : Uni) (big : Bool) (cs : List Nat) : Out Tok :=
  match skip U .space cs with
  | none => .err
  | some r => tokenAt U big r

/-- The outcome of a conversion. -/
inductive Res (α : Type)
  /-- `r == RJS_FALSE`. -/
  | no
  | val (x : α)
  | undef
  | fuel
  deriving DecidableEq

/-- The last token must be the end (rjs_string.c:663-664, 688-692). -/
def finish {α : Type} (U : Uni) (big : Bool) (x : α) (rest : List Nat) : Res α :=
  match token U big rest with
  | .ok .fin _ => .val x
  | .ok _ _ => .no
  | .err => .no
  | .undef => .undef
  | .fuel => .fuel

/-- "Infinity". -/
def infName : List Nat := [73, 110, 102, 105, 110, 105, 116, 121]

/-- Behind the sign, `sign` is 0, 1 (`+`) or 2 (`-`) (rjs_string.c:625-692), numbers. -/
def bodyNumber {F : Type} (U : Uni) (L : Lib F) (sign : Nat) : Out Tok → Res F
  | .ok (.num t) rest =>
    if sign ≠ 0 ∧ t.base ≠ 10 then .no
    else if t.isBig then .no
    else
      let x := if t.base = 10 then scanValue L (strtod t.text) else L.ofNat (acc t.base t.text)
      finish U false (if sign = 2 then L.neg x else x) rest
  | .ok (.ident s) rest =>
    if s = infName then finish U false (if sign = 2 then L.neg L.inf else L.inf) rest else .no
  | .ok .fin _ => if sign ≠ 0 then .no else .val L.zero
  | .ok _ _ => .no
  | .err => .no
  | .undef => .undef
  | .fuel => .fuel

/-- `parse_string` with `is_big_int` 0: `.no` is NaN. -/
def parseNumber {F : Type} (U : Uni) (L : Lib F) (s : List Nat) : Res F :=
  match token U false (points s) with
  | .ok .plus rest => bodyNumber U L 1 (token U false rest)
  | .ok .minus rest => bodyNumber U L 2 (token U false rest)
  | t => bodyNumber U L 0 t

/-- `rjs_string_to_number` (rjs_string.c:716-729). -/
def toNumber {F : Type} (U : Uni) (L : Lib F) (s : List Nat) : Res F :=
  match parseNumber U L s with
  | .no => .val L.nan
  | r => r

/-- The integer of digits in a base: `rjs_big_int_from_chars` (C18). -/
def digitsVal (base : Nat) (ds : List Nat) : Nat := ds.foldl (fun d c => d * base + digitVal c) 0

/-- Behind the sign, BigInts. -/
def bodyBigInt (U : Uni) (sign : Nat) : Out Tok → Res Int
  | .ok (.num t) rest =>
    if sign ≠ 0 ∧ t.base ≠ 10 then .no
    else
      let x : Int := digitsVal t.base t.text
      finish U true (if sign = 2 then -x else x) rest
  | .ok .fin _ => if sign ≠ 0 then .no else .val 0
  | .ok _ _ => .no
  | .err => .no
  | .undef => .undef
  | .fuel => .fuel

/-- `parse_string` with `is_big_int` 1 (`rjs_string_to_big_int`, rjs_string.c:741-745): `.no` is
undefined, a SyntaxError in `BigInt()`. -/
def toBigInt (U : Uni) (s : List Nat) : Res Int :=
  match token U true (points s) with
  | .ok .plus rest => bodyBigInt U 1 (token U true rest)
  | .ok .minus rest => bodyBigInt U 2 (token U true rest)
  | t => bodyBigInt U 0 t

end Verif.StrNum
