import Verif.Model.Str
import Verif.Model.NumStr
/-
Model of JSON: the lexical analyser in its JSON mode (`/repo/src/lib/rjs_lex.c`), the parser and
the printer (`/repo/src/lib/rjs_json_opt.c`).

Characters.  Strings are lists of code units.  The analyser reads code points: `decode` gives all
of them at once, and reading and putting back a character (`lex_get_uc`, `lex_unget_uc`) are
taking it from the front of a list and adding it there.  `RJS_INPUT_END` is the empty list.

Errors.  `lex_error` (rjs_lex.c:60-80) sets a flag; the analyser reads on to the end of the token,
and then the token is refused (lines 1547-1551).  Where nothing can happen in between, the model
gives `err` at once.  Undefined behaviour and failed assertions are `undef`.  Loops that read
escape sequences have fuel, and running out of it is `fuel`.

Not modelled: failing memory allocation, the size of the C stack (the parser and the printer are
recursive), locations and messages.  Arrays are filled with `rjs_set_index` (rjs_json_opt.c:168):
it is assumed that no script has put a setter on `Array.prototype`.  In `JSON.parse` the function
`reviver`, in `JSON.stringify` the `replacer` and functions `toJSON` are not modelled.
`rt->parser` (rjs_lex.c:702) is null: nothing is being compiled.
-/
namespace Verif.Json

/-! ## Library functions -/

/-- What ICU says about characters that are not ASCII (`/repo/src/lib/rjs_uchar_icu_opt.c`:34-71). -/
structure Uni where
  white : Nat → Bool
  idStart : Nat → Bool
  idCont : Nat → Bool

def isDigit (c : Nat) : Bool := 48 ≤ c && c ≤ 57
def isOctal (c : Nat) : Bool := 48 ≤ c && c ≤ 55
def isBinary (c : Nat) : Bool := c == 48 || c == 49
def isHex (c : Nat) : Bool := isDigit c || (97 ≤ c && c ≤ 102) || (65 ≤ c && c ≤ 70)
def isAlpha (c : Nat) : Bool := (97 ≤ c && c ≤ 122) || (65 ≤ c && c ≤ 90)

/-- `rjs_hex_char_to_number` (`/repo/src/lib/include/rjs_uchar.h`:106-117). -/
def hexNum (c : Nat) : Nat :=
  if 97 ≤ c && c ≤ 102 then c - 97 + 10 else if 65 ≤ c && c ≤ 70 then c - 65 + 10 else c - 48

/-- `rjs_uchar_is_line_terminator` (rjs_uchar.h:159-163). -/
def isLine (c : Nat) : Bool := c == 0x0a || c == 0x0d || c == 0x2028 || c == 0x2029

/-- `rjs_uchar_is_white_space` (rjs_uchar_icu_opt.c:34-38).  The white space of ASCII is
`\t \n \v \f \r` and the space. -/
def Uni.isWhite (U : Uni) (c : Nat) : Bool :=
  if c < 128 then (9 ≤ c && c ≤ 13) || c == 32 else c == 0xfeff || U.white c

/-- `rjs_uchar_is_id_start` (rjs_uchar_icu_opt.c:46-54). -/
def Uni.isStart (U : Uni) (c : Nat) : Bool :=
  if c < 128 then isAlpha c || c == 36 || c == 95 else U.idStart c

/-- `rjs_uchar_is_id_continue` (rjs_uchar_icu_opt.c:62-71). -/
def Uni.isCont (U : Uni) (c : Nat) : Bool :=
  if c < 128 then isAlpha c || isDigit c || c == 36 || c == 95
  else c == 0x200c || c == 0x200d || U.idStart c || U.idCont c

/-- What `rjs_number_to_string` (`/repo/src/lib/rjs_number.c`:255-339) finds out about a number. -/
inductive View where
  | nan
  | inf
  | negZero
  /-- `is_array_index`. -/
  | index (n : Nat)
  /-- The digits and the position of the point given by `rjs_dtoa`. -/
  | dec (neg : Bool) (ds : List Nat) (decpt : Int)

/-- Numbers and the functions of the library on them. -/
structure Lib (F : Type) where
  /-- `rjs_strtod` (`/repo/src/lib/rjs_dtoa.c`); `rjs_strtoi` with base 10 is the same function
  (`/repo/src/lib/rjs_strtoi.c`:69-70). -/
  strtod : List Nat → F
  /-- `rjs_strtoi` with another base (rjs_strtoi.c:72-107). -/
  strtoi : Nat → List Nat → F
  neg : F → F
  inf : F
  nan : F
  view : F → View

/-! ## Values -/

/-- A value.  An object is the list of its properties in the order of `[[OwnPropertyKeys]]`. -/
inductive Val (F : Type) where
  | null
  | bool (b : Bool)
  | num (x : F)
  | str (s : List Nat)
  /-- A BigInt, given by base and digits. -/
  | big (base : Nat) (digits : List Nat)
  | arr (l : List (Val F))
  | obj (l : List (List Nat × Val F))

/-- The string by which the engine names the property (C26: `prop_resolve`,
`/repo/src/lib/rjs_object.c`:194-218). -/
def keyOf (k : List Nat) : List Nat :=
  match Str.resolve k with
  | .index i => Str.decimal i
  | .name s => s

/-- Integer keys are in front of the others, in ascending order (C31). -/
def precedes (a b : List Nat) : Bool :=
  match Str.resolve a, Str.resolve b with
  | .index i, .index j => i < j
  | .index _, .name _ => true
  | .name _, .index _ => false
  | .name _, .name _ => true

/-- The place of a new property. -/
def place {F : Type} (k : List Nat) (v : Val F) : List (List Nat × Val F) → List (List Nat × Val F)
  | [] => [(k, v)]
  | p :: l => if precedes p.1 k then p :: place k v l else (k, v) :: p :: l

/-- `rjs_create_data_property_or_throw` (rjs_json_opt.c:239) on the object being made: C30, C31. -/
def create {F : Type} (l : List (List Nat × Val F)) (k : List Nat) (v : Val F) :
    List (List Nat × Val F) :=
  if (l.map Prod.fst).contains (keyOf k) then
    l.map (fun p => if p.1 = keyOf k then (keyOf k, v) else p)
  else place (keyOf k) v l

/-! ## Reading characters -/

def isLead (c : Nat) : Bool := 0xd800 ≤ c && c ≤ 0xdbff
def isTrail (c : Nat) : Bool := 0xdc00 ≤ c && c ≤ 0xdfff

/-- `rjs_surrogate_pair_to_uc` (rjs_uchar.h:337-341). -/
def join (l t : Nat) : Nat := (l - 0xd800) * 1024 + (t - 0xdc00) + 0x10000

/-- `rjs_input_get_uc` (`/repo/src/lib/rjs_input.c`:217-261) until the end, with the flag
`RJS_INPUT_FL_CRLF_TO_LF` (rjs_json_opt.c:391).  `rjs_input_unget_uc` (lines 269-297) goes back
by what the last character was made of. -/
def decode : List Nat → List Nat
  | [] => []
  | [c] => if c = 13 then [10] else [c]
  | c :: d :: cs =>
    if isLead c && isTrail d then join c d :: decode cs
    else if c = 13 then
      if d = 10 then 10 :: decode cs else 10 :: decode (d :: cs)
    else c :: decode (d :: cs)

/-- `rjs_uchar_buffer_append_uc` (`/repo/src/lib/rjs_uchar_buffer.c`:58-80). -/
def units (c : Nat) : List Nat :=
  if 0xffff < c then [(c - 0x10000) / 1024 + 0xd800, (c - 0x10000) % 1024 + 0xdc00] else [c]

/-! ## Tokens -/

/-- The outcome of reading something. -/
inductive Out (α : Type) where
  | ok (a : α) (rest : List Nat)
  /-- `lex_error` or `json_parse_error`. -/
  | err
  /-- Undefined behaviour. -/
  | undef
  | fuel

/-- White space, a comment to the end of the line (rjs_lex.c:124-137), a comment between `/*` and
`*/` (lines 140-167). -/
inductive Mode where
  | space | line | block

/-- Skipping white space and comments (rjs_lex.c:1451-1477); `none` if a comment does not end. -/
def skip (U : Uni) : Mode → List Nat → Option (List Nat)
  | .space, [] => some []
  | .space, 47 :: 47 :: cs => skip U .line cs
  | .space, 47 :: 42 :: cs => skip U .block cs
  | .space, c :: cs => if U.isWhite c then skip U .space cs else some (c :: cs)
  | .line, [] => some []
  | .line, c :: cs => if isLine c then skip U .space cs else skip U .line cs
  | .block, [] => none
  | .block, 42 :: 47 :: cs => skip U .space cs
  | .block, _ :: cs => skip U .block cs

/-- The result of an escape sequence: was there an error, the value (`none` is -1), the
characters that follow. -/
inductive Esc where
  | undef
  | done (bad : Bool) (v : Option Nat) (rest : List Nat)

/-- `lex_hex_escape` and the second part of `lex_unicode_escape` (rjs_lex.c:216-238, 288-296): `n`
more digits. -/
def hexes : Nat → Nat → List Nat → Esc
  | 0, v, cs => .done false (some v) cs
  | _ + 1, _, [] => .done true none []
  | n + 1, v, c :: cs => if isHex c then hexes n (v * 16 + hexNum c) cs else .done true none (c :: cs)

/-- The first part of `lex_unicode_escape` (rjs_lex.c:252-284) after `\u{`.  Shifting -1 to the
left (line 272) is undefined (C11 6.5.7). -/
def braced : Bool → Option Nat → List Nat → Esc
  | _, v, [] => .done true v []
  | bad, v, c :: cs =>
    if c = 125 then .done bad v cs
    else if isHex c then
      match v with
      | none => .undef
      | some v =>
        if 0x10ffff < v * 16 + hexNum c then braced true none cs
        else braced bad (some (v * 16 + hexNum c)) cs
    else .done true none (c :: cs)

/-- `lex_unicode_escape` (rjs_lex.c:241-300). -/
def unicode : List Nat → Esc
  | 123 :: cs => braced false (some 0) cs
  | cs => hexes 4 0 cs

/-- `lex_octal_escape` (rjs_lex.c:170-193). -/
def octal : List Nat → Nat × List Nat
  | [] => (0, [])
  | [a] => (a - 48, [])
  | [a, b] => if isOctal b then ((a - 48) * 8 + (b - 48), []) else (a - 48, [b])
  | a :: b :: c :: cs =>
    if a ≤ 51 && isOctal b && isOctal c then ((a - 48) * 64 + (b - 48) * 8 + (c - 48), cs)
    else if isOctal b then ((a - 48) * 8 + (b - 48), c :: cs)
    else (a - 48, b :: c :: cs)

/-- The escape sequences of one letter (rjs_lex.c:345-362, 1137-1166). -/
def simple (c : Nat) : Option Nat :=
  if c = 98 then some 8 else if c = 102 then some 12 else if c = 110 then some 10
  else if c = 114 then some 13 else if c = 116 then some 9 else if c = 118 then some 11
  else none

/-- The effect of an escape sequence in a string: was there an error, the code units to append. -/
inductive Piece where
  | undef
  | done (bad : Bool) (add : List Nat) (rest : List Nat)

/-- `if (c >= 0) append` (rjs_lex.c:367-372, 378-383). -/
def Esc.piece : Esc → Piece
  | .undef => .undef
  | .done bad (some v) rest => .done bad (units v) rest
  | .done _ none rest => .done true [] rest

/-- The next character is a digit. -/
def digitNext : List Nat → Bool
  | [] => false
  | c :: _ => isDigit c

/-- The escape sequence in a string that begins with `c` (rjs_lex.c:344-414). -/
def escape (c : Nat) (cs : List Nat) : Piece :=
  match simple c with
  | some v => .done false [v] cs
  | none =>
    if c = 120 then (hexes 2 0 cs).piece
    else if c = 117 then (unicode cs).piece
    else if isDigit c then
      if c = 48 && !digitNext cs then .done false [0] cs
      else if c = 56 || c = 57 then .done false [c] cs
      else .done false (units (octal (c :: cs)).1) (octal (c :: cs)).2
    else if isLine c then .done false [] cs
    else .done false (units c) cs

/-- `lex_string` (rjs_lex.c:303-448) with the quote `q`; `bad` is the flag of errors, `acc` is
`uc_text`. -/
def lexString (q : Nat) : Nat → Bool → List Nat → List Nat → Out (List Nat)
  | 0, _, _, _ => .fuel
  | _ + 1, _, _, [] => .err
  | f + 1, bad, acc, c :: cs =>
    if c = q then if bad then .err else .ok acc cs
    else if c = 0x0a || c = 0x0d then .err
    else if c = 92 then
      match cs with
      | [] => .err
      | d :: ds =>
        match escape d ds with
        | .undef => .undef
        | .done b add rest => lexString q f (bad || b) (acc ++ add) rest
    else lexString q f bad (acc ++ units c) cs

/-- The characters read, where `rest` is what is left of `cs`. -/
def read (cs rest : List Nat) : List Nat := cs.take (cs.length - rest.length)

/-- After `\x` or `\u` in a template; where it is wrong, the characters read stay in `uc_text`
(rjs_lex.c:1167-1188). -/
def Esc.keep (c : Nat) (cs : List Nat) : Esc → Piece
  | .undef => .undef
  | .done _ (some v) rest => .done false (units v) rest
  | .done _ none rest => .done false (92 :: c :: (read cs rest).flatMap units) rest

/-- The escape sequence in a template that begins with `c` (rjs_lex.c:1130-1218). -/
def escapeT (c : Nat) (cs : List Nat) : Piece :=
  match simple c with
  | some v => .done false [v] cs
  | none =>
    if c = 120 then (hexes 2 0 cs).keep c cs
    else if c = 117 then (unicode cs).keep c cs
    else if c = 48 then if digitNext cs then .done false [92] cs else .done false [0] cs
    else if isDigit c then .done false [92] cs
    else if isLine c then .done false [] cs
    else .done false (units c) cs

/-- `lex_template` (rjs_lex.c:1092-1228) in JSON mode.  Errors in escape sequences are only
warnings (`escape_error` is not used in JSON mode). -/
def lexTemplate : Nat → List Nat → List Nat → Out (List Nat)
  | 0, _, _ => .fuel
  | _ + 1, _, [] => .err
  | f + 1, acc, c :: cs =>
    if c = 96 then .ok acc cs
    else if c = 92 then
      match cs with
      | [] => .err
      | d :: ds =>
        match escapeT d ds with
        | .undef => .undef
        | .done _ add rest => lexTemplate f (acc ++ add) rest
    else lexTemplate f (acc ++ units c) cs

/-- The loops over digits in `lex_number` (rjs_lex.c:530-608, 620-638, 655-678): `p` is the test
of digits, `need` says that there must be one, `sep` is `can_sep`, `any` says that there was one.
The digits, and what follows. -/
def digits (p : Nat → Bool) (noSep need : Bool) : Bool → Bool → List Nat →
    Option (List Nat × List Nat)
  | sep, any, [] =>
    if need && !any then none else if !noSep && any && !sep then none else some ([], [])
  | sep, any, c :: cs =>
    if !noSep && sep && c == 95 then digits p noSep need false any cs
    else if p c then
      match digits p noSep need true true cs with
      | some (ds, rest) => some (c :: ds, rest)
      | none => none
    else if need && !any then none
    else if !noSep && any && !sep then none
    else some ([], c :: cs)

/-- The digits after a zero and an octal digit (rjs_lex.c:556-572): with `8`, `9`, `.` or `e` the
number becomes decimal, and that character is one of the digits (line 605).  The base, the
digits, and what follows. -/
def legacy : List Nat → Option (Nat × List Nat × List Nat)
  | [] => some (8, [], [])
  | c :: cs =>
    if isOctal c then
      match legacy cs with
      | some (b, ds, rest) => some (b, c :: ds, rest)
      | none => none
    else if isDigit c || c == 46 || c == 101 || c == 69 then
      match digits isDigit true true true true cs with
      | some (ds, rest) => some (10, c :: ds, rest)
      | none => none
    else some (8, [], c :: cs)

/-- What is known after the integer part (`int_end`, rjs_lex.c:610). -/
structure IntPart where
  base : Nat
  noSep : Bool
  legacy : Bool
  buf : List Nat
  rest : List Nat

def intPart (base : Nat) (p : Nat → Bool) (noSep leg : Bool) (cs : List Nat) : Option IntPart :=
  match digits p noSep true false false cs with
  | some (ds, rest) => some ⟨base, noSep, leg, ds, rest⟩
  | none => none

/-- The integer part (rjs_lex.c:485-608). -/
def integer : List Nat → Option IntPart
  | 46 :: cs => some ⟨10, false, false, [], 46 :: cs⟩
  | 48 :: c :: cs =>
    if c = 98 || c = 66 then intPart 2 isBinary false false cs
    else if c = 111 || c = 79 then intPart 8 isOctal false false cs
    else if c = 120 || c = 88 then intPart 16 isHex false false cs
    else if isOctal c then
      match legacy (c :: cs) with
      | some (b, ds, rest) => some ⟨b, true, true, ds, rest⟩
      | none => none
    else if c = 95 then none
    else if c = 56 || c = 57 then intPart 10 isDigit true true (48 :: c :: cs)
    else intPart 10 isDigit false false (48 :: c :: cs)
  | cs => intPart 10 isDigit false false cs

/-- The part behind the point (rjs_lex.c:613-639): is there a point, the text, and what
follows. -/
def fractionPart (noSep : Bool) : List Nat → Option (Bool × List Nat × List Nat)
  | 46 :: cs =>
    match digits isDigit noSep false false false cs with
    | some (ds, rest) => some (true, 46 :: ds, rest)
    | none => none
  | cs => some (false, [], cs)

/-- The sign of an exponent (rjs_lex.c:648-653). -/
def signPart : List Nat → List Nat × List Nat
  | [] => ([], [])
  | c :: cs => if c = 43 || c = 45 then ([c], cs) else ([], c :: cs)

/-- The exponent (rjs_lex.c:641-679). -/
def exponentPart (noSep : Bool) : List Nat → Option (Bool × List Nat × List Nat)
  | [] => some (false, [], [])
  | c :: cs =>
    if c = 101 || c = 69 then
      match digits isDigit noSep true false false (signPart cs).2 with
      | some (ds, rest) => some (true, c :: ((signPart cs).1 ++ ds), rest)
      | none => none
    else some (false, [], c :: cs)

/-- The text of a number without a suffix. -/
structure Numeral where
  base : Nat
  legacy : Bool
  float : Bool
  buf : List Nat
  rest : List Nat

def numeral (cs : List Nat) : Option Numeral :=
  match integer cs with
  | none => none
  | some i =>
    if i.base = 10 then
      match fractionPart i.noSep i.rest with
      | none => none
      | some (f1, t1, r1) =>
        match exponentPart i.noSep r1 with
        | none => none
        | some (f2, t2, r2) => some ⟨10, i.legacy, f1 || f2, i.buf ++ t1 ++ t2, r2⟩
    else some ⟨i.base, i.legacy, false, i.buf, i.rest⟩

/-- A number must not be followed by a digit or a letter (rjs_lex.c:693-697). -/
def ends (U : Uni) : List Nat → Bool
  | [] => true
  | c :: _ => !(isDigit c || U.isStart c)

/-- `lex_number` (rjs_lex.c:461-741). -/
def lexNumber {F : Type} (U : Uni) (L : Lib F) (cs : List Nat) : Out (Val F) :=
  match numeral cs with
  | none => .err
  | some n =>
    match n.rest with
    | 110 :: rest =>
      if !n.legacy && !n.float then
        if ends U rest then .ok (.big n.base n.buf) rest else .err
      else .err
    | rest =>
      if ends U rest then
        .ok (.num (if n.base = 10 then L.strtod n.buf else L.strtoi n.base n.buf)) rest
      else .err

/-- The loop of `lex_identifier` (rjs_lex.c:849-874); `bad` is the flag of errors. -/
def identLoop (U : Uni) : Nat → Bool → List Nat → List Nat → Out (List Nat)
  | 0, _, _, _ => .fuel
  | _ + 1, bad, acc, [] => if bad then .err else .ok acc []
  | f + 1, bad, acc, c :: cs =>
    if c = 92 then
      match cs with
      | 117 :: ds =>
        match unicode ds with
        | .undef => .undef
        | .done _ none _ => .err
        | .done b (some v) rest =>
          if U.isCont v then identLoop U f (bad || b) (acc ++ units v) rest else .err
      | _ => if bad then .err else .ok acc (c :: cs)
    else if U.isCont c then identLoop U f bad (acc ++ units c) cs
    else if bad then .err else .ok acc (c :: cs)

/-- `lex_identifier` (rjs_lex.c:816-926). -/
def lexIdent (U : Uni) : List Nat → Out (List Nat)
  | [] => .err
  | c :: cs =>
    if c = 92 then
      match cs with
      | 117 :: ds =>
        match unicode ds with
        | .undef => .undef
        | .done _ none _ => .err
        | .done b (some v) rest =>
          if U.isStart v then identLoop U (rest.length + 1) b (units v) rest else .err
      | _ => .err
    else if U.isStart c then identLoop U (cs.length + 1) false (units c) cs
    else .err

/-- A token. -/
inductive Tok (F : Type) where
  | eof
  | punct (c : Nat)
  | str (s : List Nat)
  | num (v : Val F)
  | ident (s : List Nat)

/-- The result of a token of a kind. -/
def Out.map {α β : Type} (g : α → β) : Out α → Out β
  | .ok a rest => .ok (g a) rest
  | .err => .err
  | .undef => .undef
  | .fuel => .fuel

/-- The characters that are tokens of their own: `{ } [ ] , : + -`. -/
def isPunct (c : Nat) : Bool :=
  c == 123 || c == 125 || c == 91 || c == 93 || c == 44 || c == 58 || c == 43 || c == 45

/-- The token after white space (rjs_lex.c:1486-1540). -/
def tokenAt {F : Type} (U : Uni) (L : Lib F) : List Nat → Out (Tok F)
  | [] => .ok .eof []
  | c :: cs =>
    if c = 34 || c = 39 then (lexString c (cs.length + 1) false [] cs).map .str
    else if c = 96 then (lexTemplate (cs.length + 1) [] cs).map .str
    else if c = 46 then (lexNumber U L (c :: cs)).map .num
    else if isPunct c then .ok (.punct c) cs
    else if c = 92 then (lexIdent U (c :: cs)).map .ident
    else if isDigit c then (lexNumber U L (c :: cs)).map .num
    else if U.isStart c then (lexIdent U (c :: cs)).map .ident
    else .err

/-- `rjs_lex_get_json_token` (rjs_lex.c:1442-1551). -/
def token {F : Type} (U : Uni) (L : Lib F) (cs : List Nat) : Out (Tok F) :=
  match skip U .space cs with
  | none => .err
  | some cs => tokenAt U L cs

/-! ## The parser -/

def wNull : List Nat := [110, 117, 108, 108]
def wTrue : List Nat := [116, 114, 117, 101]
def wFalse : List Nat := [102, 97, 108, 115, 101]
def wInfinity : List Nat := [73, 110, 102, 105, 110, 105, 116, 121]
def wNaN : List Nat := [78, 97, 78]

/-- `parse_json_number` (rjs_json_opt.c:264-297): after a sign. -/
def signed {F : Type} (U : Uni) (L : Lib F) (cs : List Nat) : Out (Val F) :=
  match token U L cs with
  | .ok (.num v) rest => .ok v rest
  | .ok (.ident s) rest =>
    if s = wInfinity then .ok (.num L.inf) rest
    else if s = wNaN then .ok (.num L.nan) rest
    else .err
  | .ok _ _ => .err
  | .err => .err
  | .undef => .undef
  | .fuel => .fuel

/-- The value of an identifier (rjs_json_opt.c:332-352). -/
def word {F : Type} (L : Lib F) (s : List Nat) : Option (Val F) :=
  if s = wNull then some .null
  else if s = wTrue then some (.bool true)
  else if s = wFalse then some (.bool false)
  else if s = wInfinity then some (.num L.inf)
  else if s = wNaN then some (.num L.nan)
  else none

/-- Negation (rjs_json_opt.c:324-331).  `rjs_value_get_number` takes the bits of a value as they are
(`/repo/include/ratjs/rjs_value.h`:391-396), and those of a BigInt with the sign changed are a
NaN (tag `0xfffe`).  Other values do not occur. -/
def negate {F : Type} (L : Lib F) : Out (Val F) → Out (Val F)
  | .ok (.num x) rest => .ok (.num (L.neg x)) rest
  | .ok (.big _ _) rest => .ok (.num L.nan) rest
  | .ok _ _ => .undef
  | o => o

/-- The key of a property (rjs_json_opt.c:215-222). -/
def keyTok {F : Type} : Tok F → Option (List Nat)
  | .str s => some s
  | .ident s => some s
  | _ => none

mutual

/-- `parse_value` (rjs_json_opt.c:300-360). -/
def value {F : Type} (U : Uni) (L : Lib F) : Nat → List Nat → Out (Val F)
  | 0, _ => .fuel
  | f + 1, cs =>
    match token U L cs with
    | .ok (.punct c) rest =>
      if c = 91 then array U L f [] rest
      else if c = 123 then object U L f [] rest
      else if c = 43 then signed U L rest
      else if c = 45 then negate L (signed U L rest)
      else .err
    | .ok (.str s) rest => .ok (.str s) rest
    | .ok (.num v) rest => .ok v rest
    | .ok (.ident s) rest =>
      match word L s with
      | some v => .ok v rest
      | none => .err
    | .ok .eof _ => .err
    | .err => .err
    | .undef => .undef
    | .fuel => .fuel

/-- The loop of `parse_array` (rjs_json_opt.c:153-185); `acc` are the elements so far.  The token
put back (line 163) is read again by `parse_value`. -/
def array {F : Type} (U : Uni) (L : Lib F) : Nat → List (Val F) → List Nat → Out (Val F)
  | 0, _, _ => .fuel
  | f + 1, acc, cs =>
    match token U L cs with
    | .ok t rest =>
      match t with
      | .punct 93 => .ok (.arr acc) rest
      | _ =>
        match value U L f cs with
        | .ok v rest =>
          match token U L rest with
          | .ok (.punct 93) rest => .ok (.arr (acc ++ [v])) rest
          | .ok (.punct 44) rest => array U L f (acc ++ [v]) rest
          | .ok _ _ => .err
          | .err => .err
          | .undef => .undef
          | .fuel => .fuel
        | .err => .err
        | .undef => .undef
        | .fuel => .fuel
    | .err => .err
    | .undef => .undef
    | .fuel => .fuel

/-- The loop of `parse_object` (rjs_json_opt.c:206-255); `acc` are the properties so far. -/
def object {F : Type} (U : Uni) (L : Lib F) : Nat → List (List Nat × Val F) → List Nat → Out (Val F)
  | 0, _, _ => .fuel
  | f + 1, acc, cs =>
    match token U L cs with
    | .ok t rest =>
      match t with
      | .punct 125 => .ok (.obj acc) rest
      | t =>
        match keyTok t with
        | none => .err
        | some k =>
          match token U L rest with
          | .ok (.punct 58) rest =>
            match value U L f rest with
            | .ok v rest =>
              match token U L rest with
              | .ok (.punct 125) rest => .ok (.obj (create acc k v)) rest
              | .ok (.punct 44) rest => object U L f (create acc k v) rest
              | .ok _ _ => .err
              | .err => .err
              | .undef => .undef
              | .fuel => .fuel
            | .err => .err
            | .undef => .undef
            | .fuel => .fuel
          | .ok _ _ => .err
          | .err => .err
          | .undef => .undef
          | .fuel => .fuel
    | .err => .err
    | .undef => .undef
    | .fuel => .fuel

end

/-- The result of `JSON.parse`. -/
inductive Result (F : Type) where
  | ok (v : Val F)
  | syntaxError
  | undef
  | fuel

/-- `rjs_json_from_string`, `json_from_input`, `parse_json` (rjs_json_opt.c:364-404, 453-467). -/
def parse {F : Type} (U : Uni) (L : Lib F) (text : List Nat) : Result F :=
  match value U L (2 * (decode text).length + 1) (decode text) with
  | .ok v rest =>
    match token U L rest with
    | .ok .eof _ => .ok v
    | .ok _ _ => .syntaxError
    | .err => .syntaxError
    | .undef => .undef
    | .fuel => .fuel
  | .err => .syntaxError
  | .undef => .undef
  | .fuel => .fuel

/-! ## The printer -/

/-- `rjs_number_to_hex_char_l` (rjs_uchar.h:124-133). -/
def hexChar (n : Nat) : Nat := if n ≤ 9 then n + 48 else n - 10 + 97

/-- One character of a string (rjs_json_opt.c:526-564). -/
def quoteChar (c : Nat) : List Nat :=
  if c = 8 then [92, 98] else if c = 9 then [92, 116] else if c = 10 then [92, 110]
  else if c = 12 then [92, 102] else if c = 13 then [92, 114]
  else if c = 34 then [92, 34] else if c = 92 then [92, 92]
  else if c < 32 || (0xd800 ≤ c && c ≤ 0xdfff) then
    [92, 117, hexChar (c / 4096), hexChar (c / 256 % 16), hexChar (c / 16 % 16), hexChar (c % 16)]
  else units c

/-- The loop of `quote_json_string` (rjs_json_opt.c:509-565). -/
def quoteLoop : List Nat → List Nat
  | [] => []
  | [c] => quoteChar c
  | c :: d :: cs =>
    if isLead c && isTrail d then quoteChar (join c d) ++ quoteLoop cs
    else quoteChar c ++ quoteLoop (d :: cs)

/-- `quote_json_string` (rjs_json_opt.c:498-571). -/
def quote (s : List Nat) : List Nat := 34 :: (quoteLoop s ++ [34])

/-- What can go wrong. -/
inductive Fault where
  | typeError
  | undef
deriving DecidableEq

/-- The text of a number (rjs_json_opt.c:909-919, rjs_number.c:255-339). -/
def number {F : Type} (L : Lib F) (x : F) : Except Fault (List Nat) :=
  match L.view x with
  | .nan => .ok wNull
  | .inf => .ok wNull
  | .negZero => .ok [48]
  | .index n => .ok (Str.decimal n)
  | .dec neg ds p =>
    match NumStr.fmt neg ds p with
    | .ok s => .ok s
    | _ => .error .undef

/-- `if (js->gap) ...`: a new line and the indentation (rjs_json_opt.c:638-641, 652-653, 770-773,
814-815). -/
def newLine (gap : Option (List Nat)) (indent : List Nat) : List Nat :=
  match gap with
  | none => []
  | some _ => 10 :: indent

/-- The indentation inside (rjs_json_opt.c:616-620, 717-721). -/
def deeper (gap : Option (List Nat)) (indent : List Nat) : List Nat :=
  match gap with
  | none => indent
  | some g => indent ++ g

/-- The space after a colon (rjs_json_opt.c:681-682). -/
def colon (gap : Option (List Nat)) : List Nat :=
  match gap with
  | none => [58]
  | some _ => [58, 32]

mutual

/-- `serialize_json_property` (rjs_json_opt.c:834-943) for a value that has been read.  Values are
trees, so the search for cycles (line 574) finds nothing. -/
def serialize {F : Type} (L : Lib F) (gap : Option (List Nat)) :
    List Nat → Val F → Except Fault (List Nat)
  | _, .null => .ok wNull
  | _, .bool b => .ok (if b then wTrue else wFalse)
  | _, .str s => .ok (quote s)
  | _, .num x => number L x
  | _, .big _ _ => .error .typeError
  | indent, .arr l =>
    match items L gap (deeper gap indent) true l with
    | .error e => .error e
    | .ok t => .ok (91 :: (t ++ (if l.isEmpty then [] else newLine gap indent) ++ [93]))
  | indent, .obj l =>
    match members L gap (deeper gap indent) true l with
    | .error e => .error e
    | .ok t => .ok (123 :: (t ++ (if l.isEmpty then [] else newLine gap indent) ++ [125]))

/-- The loop of `serialize_json_array` (rjs_json_opt.c:622-648). -/
def items {F : Type} (L : Lib F) (gap : Option (List Nat)) :
    List Nat → Bool → List (Val F) → Except Fault (List Nat)
  | _, _, [] => .ok []
  | indent, first, v :: l =>
    match serialize L gap indent v with
    | .error e => .error e
    | .ok s =>
      match items L gap indent false l with
      | .error e => .error e
      | .ok t => .ok ((if first then [] else [44]) ++ newLine gap indent ++ s ++ t)

/-- The loop of `serialize_json_object` (rjs_json_opt.c:753-786) and `serialize_key_value` (lines
670-687). -/
def members {F : Type} (L : Lib F) (gap : Option (List Nat)) :
    List Nat → Bool → List (List Nat × Val F) → Except Fault (List Nat)
  | _, _, [] => .ok []
  | indent, first, (k, v) :: l =>
    match serialize L gap indent v with
    | .error e => .error e
    | .ok s =>
      match members L gap indent false l with
      | .error e => .error e
      | .ok t => .ok ((if first then [] else [44]) ++ newLine gap indent ++ quote k ++ colon gap ++ s ++ t)

end

/-- The argument `space` of `JSON.stringify` after the conversions of rjs_json_opt.c:1023-1043. -/
inductive SpaceArg where
  | none
  /-- An integer, or infinite. -/
  | int (n : Int)
  | inf (neg : Bool)
  | str (s : List Nat)

/-- The gap (rjs_json_opt.c:1039-1070).  `RJS_MIN(n, 10)` is a `double`; converting it to `ssize_t`
is undefined if it is less than `-2 ^ 63` (C11 6.3.1.4). -/
def gapOf : SpaceArg → Except Fault (Option (List Nat))
  | .none => .ok .none
  | .int n =>
    if min n 10 < -2 ^ 63 then .error .undef
    else if 1 ≤ min n 10 then .ok (some (List.replicate (min n 10).toNat 32))
    else .ok .none
  | .inf neg => if neg then .error .undef else .ok (some (List.replicate 10 32))
  | .str s => if s.length = 0 then .ok .none else .ok (some (s.take 10))

/-- `rjs_json_stringify` (rjs_json_opt.c:955-1086). -/
def stringify {F : Type} (L : Lib F) (space : SpaceArg) (v : Val F) : Except Fault (List Nat) :=
  match gapOf space with
  | .error e => .error e
  | .ok gap => serialize L gap [] v

end Verif.Json
