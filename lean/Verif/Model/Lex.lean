import Verif.Model.Json

/-!
Model of the lexical analyser of scripts: `rjs_lex_get_token` (`/repo/src/lib/rjs_lex.c`:1278-1432)
with the functions it calls, the input (`/repo/src/lib/rjs_input.c`:216-297), and the program that
makes the tables of words and punctuators (`/repo/gen/lextab/lextab.c`, word lists in
`/repo/gen/misc/identifier.h` and `punctuator.h`).

The parts shared with the analyser of JSON (white space, comments, escape sequences, numerals,
identifiers) are those of `Verif.Model.Json`.  The tokens are read from the list of characters
which `rjs_input_get_uc` gives until the end; that reading and putting back of characters amount to
taking them from the front of this list and adding them there is proved for `Input` below.

Errors.  `lex_error` sets a flag (rjs_lex.c:60-80), the analyser goes on, and the script is refused
in the end; the model ends with `err`.  Only within a string and an identifier the rest is read,
because undefined behaviour can come behind an error.

Simplifications.  Locations (lines, columns) and messages are left out.  A regular expression is not
compiled (rjs_lex.c:1085, C43 and following): the token is its source and flags.  The value of a
number is its text (`rjs_strtod`, C82).  All options of the build are on.
-/
namespace Verif.Lex
open Json (Uni Out isDigit isOctal isHex isLine units hexes unicode braced simple digitNext Esc Piece escape skip)

deriving instance DecidableEq for Json.Out

/-! ## The input -/

/-- `RJS_Input` (rjs_input.c): the code units, the next position, and the flag
`RJS_INPUT_FL_CRLF_TO_LF`. -/
structure Input where
  chars : List Nat
  crlf : Bool
  pos : Nat
  deriving DecidableEq

/-- `rjs_input_get_uc` (rjs_input.c:216-261); `none` is `RJS_INPUT_END`. -/
def Input.get (i : Input) : Option Nat × Input :=
  match i.chars.drop i.pos with
  | [] => (none, i)
  | [c] =>
    if i.crlf && c == 13 then (some 10, { i with pos := i.pos + 1 })
    else (some c, { i with pos := i.pos + 1 })
  | c :: d :: _ =>
    if Json.isLead c && Json.isTrail d then (some (Json.join c d), { i with pos := i.pos + 2 })
    else if i.crlf && c == 13 then
      if d = 10 then (some 10, { i with pos := i.pos + 2 }) else (some 10, { i with pos := i.pos + 1 })
    else (some c, { i with pos := i.pos + 1 })

/-- `rjs_input_unget_uc` (rjs_input.c:269-297), of a character or of the end.  `none` is the failed
assertion. -/
def Input.unget (i : Input) : Option Nat → Option Input
  | none => some i
  | some _ =>
    if 2 ≤ i.pos then
      let a := i.chars.getD (i.pos - 1) 0
      let b := i.chars.getD (i.pos - 2) 0
      if Json.isTrail a && Json.isLead b then some { i with pos := i.pos - 2 }
      else if i.crlf && a == 10 && b == 13 then some { i with pos := i.pos - 2 }
      else some { i with pos := i.pos - 1 }
    else if i.pos = 0 then none
    else some { i with pos := i.pos - 1 }

/-! ## Tables -/

/-- `LEX_Entry` (lextab.c:41-47), `RJS_LexCharEntry`.  `none` is -1, or NULL. -/
structure Entry (α : Type) where
  c : Nat
  next : Option Nat
  child : Option Nat
  result : Option α

/-- The result of looking for a character. -/
inductive Found
  | none
  | entry (i : Nat)
  /-- The loop does not end, or leaves the table. -/
  | stuck
  deriving DecidableEq

variable {α : Type}

/-- The loop over the entries of a chain (lextab.c:103-110, rjs_lex.c:894-901, 954-961). -/
def find (tab : List (Entry α)) (c : Nat) : Nat → Option Nat → Found
  | _, .none => .none
  | 0, some _ => .stuck
  | f + 1, some i =>
    match tab[i]? with
    | .none => .stuck
    | some e => if e.c = c then .entry i else find tab c f e.next

/-- The child of an entry for a character. -/
def child (tab : List (Entry α)) (p : Nat) (c : Nat) : Found :=
  match tab[p]? with
  | .none => .stuck
  | some e => find tab c tab.length e.child

/-- A new first child (lextab.c:112-120, `entry_add` 66-90). -/
def addChild (tab : List (Entry α)) (p : Nat) (c : Nat) : List (Entry α) :=
  match tab[p]? with
  | .none => tab
  | some e => tab.set p { e with child := some tab.length } ++ [⟨c, e.child, .none, .none⟩]

/-- The loop of `build_token` (lextab.c:98-124). -/
def insert (tab : List (Entry α)) (p : Nat) : List Nat → List (Entry α) × Nat
  | [] => (tab, p)
  | c :: cs =>
    match child tab p c with
    | .entry i => insert tab i cs
    | _ => insert (addChild tab p c) tab.length cs

/-- `build_token` (lextab.c:93-130). -/
def buildToken (tab : List (Entry α)) (w : List Nat) (r : α) : List (Entry α) :=
  match (insert tab 0 w).1[(insert tab 0 w).2]? with
  | .none => (insert tab 0 w).1
  | some e => (insert tab 0 w).1.set (insert tab 0 w).2 { e with result := some r }

/-- The table with the first entry (lextab.c:309-310). -/
def start : List (Entry α) := [⟨83, .none, .none, .none⟩]

/-- `build_table` (lextab.c:133-142), of all lists together (lines 312-315). -/
def buildTable (ws : List (List Nat × α)) : List (Entry α) :=
  ws.foldl (fun tab w => buildToken tab w.1 w.2) start

/-- What the token of an identifier says about its word. -/
inductive Word
  /-- `RJS_TOKEN_FL_RESERVED`. -/
  | reserved
  /-- `RJS_TOKEN_FL_STRICT_RESERVED`. -/
  | strict
  /-- `RJS_TOKEN_FL_KNOWN_IDENTIFIER`. -/
  | known
  deriving DecidableEq

/-- The characters of a word. -/
def chars (s : String) : List Nat := s.toList.map Char.toNat

/-- `reserved_word` (gen/misc/identifier.h:1-45). -/
def reservedWords : List String :=
  ["await", "break", "case", "catch", "class", "const", "continue", "debugger", "default", "delete",
   "do", "else", "enum", "export", "extends", "false", "finally", "for", "function", "if", "import",
   "in", "instanceof", "new", "null", "return", "super", "switch", "this", "throw", "true", "try",
   "typeof", "var", "void", "while", "with", "yield"]

/-- `strict_reserved_word` (gen/misc/identifier.h:47-57). -/
def strictWords : List String :=
  ["implements", "interface", "package", "private", "protected", "public", "let", "static"]

/-- `identifier` (gen/misc/identifier.h:59-69). -/
def knownWords : List String := ["as", "async", "from", "get", "meta", "of", "set", "target"]

/-- `punctuator` (gen/misc/punctuator.h:1-59). -/
def punctuators : List String :=
  ["{", "}", "(", ")", "[", "]", ".", "...", ";", ",", "<", ">", "<=", ">=", "==", "!=", "===", "!==",
   "+", "-", "*", "/", "%", "**", "++", "--", "<<", ">>", ">>>", "&", "|", "^", "!", "~", "&&", "||",
   "??", "?", "?.", ":", "=", "+=", "-=", "*=", "/=", "%=", "**=", "<<=", ">>=", ">>>=", "&=", "|=",
   "^=", "&&=", "||=", "??=", "=>"]

/-- `identifier_lex_table`. -/
def wordTable : List (Entry Word) :=
  buildTable (reservedWords.map (fun w => (chars w, .reserved)) ++
    strictWords.map (fun w => (chars w, .strict)) ++ knownWords.map (fun w => (chars w, .known)))

/-- `punctuator_lex_table`; the result is the punctuator itself. -/
def punctTable : List (Entry (List Nat)) := buildTable (punctuators.map (fun w => (chars w, chars w)))

/-- Walking down the table along a word (rjs_lex.c:888-914), which is not empty. -/
def wordLoop (tab : List (Entry α)) (p : Nat) : List Nat → Option α
  | [] => .none
  | c :: cs =>
    match child tab p c with
    | .entry i =>
      match cs with
      | [] => (tab[i]?).bind Entry.result
      | _ :: _ => wordLoop tab i cs
    | _ => .none

/-- The loop of `lex_punctuator` (rjs_lex.c:939-994): the entry, `tt`, `uc_buf`, the characters that
follow.  Writing behind the end of `uc_buf` is undefined. -/
def punctLoop (tab : List (Entry α)) (p : Nat) (tt : Option α) (buf : List Nat) : List Nat → Out α
  | [] =>
    match (tab[p]?).bind Entry.result, tt with
    | some t, _ => .ok t []
    | .none, some t => .ok t buf
    | .none, .none => .err
  | c :: cs =>
    match tab[p]? with
    | .none => .undef
    | some e =>
      let tt' := e.result.or tt
      let buf' := if e.result.isSome then [] else buf
      if buf'.length < 8 then
        match find tab c tab.length e.child with
        | .entry i => punctLoop tab i tt' (buf' ++ [c]) cs
        | .none =>
          match tt' with
          | some t => .ok t (buf' ++ c :: cs)
          | .none => .err
        | .stuck => .fuel
      else .undef

/-- "?." -/
def quesDot : List Nat := [63, 46]

/-- `lex_punctuator` (rjs_lex.c:931-994). -/
def lexPunct (cs : List Nat) : Out (List Nat) :=
  match punctLoop punctTable 0 .none [] cs with
  | .ok t rest =>
    if t = quesDot && digitNext rest then .ok [63] (46 :: rest) else .ok t rest
  | o => o

/-! ## Strings -/

/-- The flag `RJS_TOKEN_FL_LEGACY_ESCAPE` after `\c` (rjs_lex.c:386-398). -/
def legacyEscape (c : Nat) (cs : List Nat) : Bool := isDigit c && !(c == 48 && !digitNext cs)

/-- The value of a string token and its flags. -/
structure StrTok where
  value : List Nat
  /-- `RJS_TOKEN_FL_ESCAPE`. -/
  esc : Bool
  /-- `RJS_TOKEN_FL_LEGACY_ESCAPE`. -/
  legacy : Bool
  deriving DecidableEq

/-- `lex_string` (rjs_lex.c:303-448) with the quote `q`; `bad` is the flag of errors. -/
def lexString (q : Nat) : Nat → Bool → StrTok → List Nat → Out StrTok
  | 0, _, _, _ => .fuel
  | _ + 1, _, _, [] => .err
  | f + 1, bad, t, c :: cs =>
    if c = q then if bad then .err else .ok t cs
    else if c = 0x0a || c = 0x0d then .err
    else if c = 92 then
      match cs with
      | [] => .err
      | d :: ds =>
        match escape d ds with
        | .undef => .undef
        | .done b add rest =>
          lexString q f (bad || b) ⟨t.value ++ add, true, t.legacy || legacyEscape d ds⟩ rest
    else lexString q f bad ⟨t.value ++ units c, t.esc, t.legacy⟩ cs

/-- The flag `RJS_TOKEN_FL_UNPAIRED_SURROGATE` (rjs_lex.c:420-442). -/
def unpaired : List Nat → Bool
  | [] => false
  | [c] => Json.isTrail c || Json.isLead c
  | c :: d :: cs =>
    if Json.isTrail c then true
    else if Json.isLead c then if !Json.isTrail d then true else unpaired cs
    else unpaired (d :: cs)

/-! ## Templates -/

/-- The effect of an escape sequence in a template: `escape_error`, what is appended to `uc_text` and
to `raw_uc_text`. -/
inductive TPiece
  | undef
  | done (bad : Bool) (add raw : List Nat) (rest : List Nat)

/-- The characters read, where `rest` is what is left of `cs`. -/
def read (cs rest : List Nat) : List Nat := cs.take (cs.length - rest.length)

/-- After `\x` or `\u` (rjs_lex.c:1167-1188). -/
def templEsc (c : Nat) (cs : List Nat) : Esc → TPiece
  | .undef => .undef
  | .done _ (some v) rest => .done false (units v) (92 :: c :: (read cs rest).flatMap units) rest
  | .done _ .none rest =>
    .done true (92 :: c :: (read cs rest).flatMap units) (92 :: c :: (read cs rest).flatMap units) rest

/-- The escape sequence in a template that begins with `c` (rjs_lex.c:1130-1218). -/
def escapeT (c : Nat) (cs : List Nat) : TPiece :=
  match simple c with
  | some v => .done false [v] [92, c] cs
  | .none =>
    if c = 120 then templEsc c cs (hexes 2 0 cs)
    else if c = 117 then templEsc c cs (unicode cs)
    else if c = 48 then
      if digitNext cs then .done true [92] [92, c] cs else .done false [0] [92, c] cs
    else if isDigit c then .done true [92] [92, c] cs
    else if isLine c then .done false [] [92, c] cs
    else .done false (units c) (92 :: units c) cs

/-- A template token. -/
structure TemplTok where
  /-- The last part of the template (`is_end`). -/
  last : Bool
  /-- The cooked string; `none` is undefined, with `RJS_TOKEN_FL_INVALIE_ESCAPE`. -/
  cooked : Option (List Nat)
  raw : List Nat
  deriving DecidableEq

/-- The strings of the token (rjs_lex.c:1244-1257). -/
def templTok (last bad : Bool) (uc raw : List Nat) : TemplTok :=
  ⟨last, if bad then .none else some uc,
    if !bad && raw.length == uc.length then uc else raw⟩

/-- `lex_template` (rjs_lex.c:1092-1268). -/
def lexTempl : Nat → Bool → List Nat → List Nat → List Nat → Out TemplTok
  | 0, _, _, _, _ => .fuel
  | _ + 1, _, _, _, [] => .err
  | f + 1, bad, uc, raw, c :: cs =>
    if c = 96 then .ok (templTok true bad uc raw) cs
    else if c = 36 then
      match cs with
      | 123 :: ds => .ok (templTok false bad uc raw) ds
      | _ => lexTempl f bad (uc ++ [36]) (raw ++ [36]) cs
    else if c = 92 then
      match cs with
      | [] => .err
      | d :: ds =>
        match escapeT d ds with
        | .undef => .undef
        | .done b add r rest => lexTempl f (bad || b) (uc ++ add) (raw ++ r) rest
    else lexTempl f bad (uc ++ units c) (raw ++ units c) cs

/-! ## Regular expressions -/

/-- The loops of `lex_regexp` (rjs_lex.c:1010-1050); `cls` says that a class is being read.  The
source, and what follows behind the second `/`. -/
def reBody : Bool → List Nat → List Nat → Option (List Nat × List Nat)
  | _, _, [] => .none
  | true, acc, c :: cs =>
    if isLine c then .none
    else reBody (!(c == 93)) (acc ++ units c) cs
  | false, acc, [c] => if c = 47 then some (acc, []) else .none
  | false, acc, c :: d :: ds =>
    if isLine c then .none
    else if c = 47 then some (acc, d :: ds)
    else if c = 92 then
      if isLine d then .none else reBody false (acc ++ 92 :: units d) ds
    else reBody (c == 91) (acc ++ units c) (d :: ds)

/-- `lex_regexp` (rjs_lex.c:997-1089) behind the first `/`: source and flags. -/
def lexRegexp (U : Uni) (cs : List Nat) : Out (List Nat × List Nat) :=
  match reBody false [] cs with
  | .none => .err
  | some (src, r) => .ok (src, (r.takeWhile U.isCont).flatMap units) (r.dropWhile U.isCont)

/-! ## Names and numbers -/

/-- The token of an identifier. -/
structure IdTok where
  value : List Nat
  word : Option Word
  /-- `RJS_TOKEN_FL_ESCAPE`: an escape sequence is read (rjs_lex.c:838, 856). -/
  esc : Bool
  deriving DecidableEq

/-- `lex_identifier` (rjs_lex.c:816-928). -/
def lexIdent (U : Uni) (cs : List Nat) : Out IdTok :=
  match Json.lexIdent U cs with
  | .ok s rest => .ok ⟨s, wordLoop wordTable 0 s, (read cs rest).contains 92⟩ rest
  | .err => .err
  | .undef => .undef
  | .fuel => .fuel

/-- `lex_private_identifier` (rjs_lex.c:746-811) behind the `#`: the same characters as in
`lex_identifier` are accepted. -/
def lexPrivate (U : Uni) (cs : List Nat) : Out (List Nat) := (Json.lexIdent U cs).map (35 :: ·)

/-- The text of a number: without separators, prefix and suffix. -/
structure NumTok where
  base : Nat
  text : List Nat
  isBig : Bool
  /-- `no_sep`: an error in strict code (rjs_lex.c:701-711). -/
  legacy : Bool
  deriving DecidableEq

/-- `lex_number` (rjs_lex.c:461-741). -/
def lexNumber (U : Uni) (strict : Bool) (cs : List Nat) : Out NumTok :=
  match Json.numeral cs with
  | .none => .err
  | some n =>
    let big := n.rest.head? == some 110 && !n.legacy && !n.float
    let rest := if big then n.rest.drop 1 else n.rest
    if Json.ends U rest && !(strict && n.legacy) then .ok ⟨n.base, n.buf, big, n.legacy⟩ rest else .err

/-! ## Tokens -/

inductive Tok
  | fin
  | str (t : StrTok) (unpaired : Bool)
  | num (t : NumTok)
  | punct (s : List Nat)
  | templ (head : Bool) (t : TemplTok)
  | regexp (src flags : List Nat)
  | priv (s : List Nat)
  | ident (t : IdTok)
  deriving DecidableEq

/-- The state of `RJS_Lex` between tokens: `brace_level`, `template_brace_level`,
`RJS_LEX_ST_FIRST_TOKEN`. -/
structure St where
  level : Int
  templs : List Int
  first : Bool
  deriving DecidableEq

/-- What the parser tells: `RJS_LEX_FL_DIV`, `RJS_PARSE_FL_STRICT`. -/
structure Mode where
  div : Bool
  strict : Bool
  deriving DecidableEq

/-- The end of a line (rjs_lex.c:1292-1298). -/
def lineEnd : List Nat → List Nat
  | [] => []
  | c :: cs => if isLine c then cs else lineEnd cs

/-- The comment in the first line (rjs_lex.c:1286-1308). -/
def hashbang : List Nat → List Nat
  | 35 :: 33 :: cs => lineEnd cs
  | cs => cs

/-- The state after the token `lex_template` gives (rjs_lex.c:1103-1104, 1230-1231). -/
def templSt (head last : Bool) (s : St) : St :=
  let ts := if head then s.level :: s.templs else s.templs
  { s with templs := if last then ts.drop 1 else ts }

/-- The call of `lex_template` and the token it gives. -/
def templAt (head : Bool) (s : St) (cs : List Nat) : Out (Tok × St) :=
  match lexTempl (cs.length + 1) false [] [] cs with
  | .ok t rest => .ok (.templ head t, templSt head t.last s) rest
  | .err => .err
  | .undef => .undef
  | .fuel => .fuel

/-- The token that begins with `c` (rjs_lex.c:1347-1418). -/
def tokenAt (U : Uni) (m : Mode) (s : St) (c : Nat) (cs : List Nat) : Out (Tok × St) :=
  if c = 34 || c = 39 then
    (lexString c (cs.length + 1) false ⟨[], false, false⟩ cs).map (fun t => (.str t (unpaired t.value), s))
  else if c = 46 then
    if digitNext cs then (lexNumber U m.strict (c :: cs)).map (fun t => (.num t, s))
    else (lexPunct (c :: cs)).map (fun t => (.punct t, s))
  else if c = 47 then
    if m.div then (lexPunct (c :: cs)).map (fun t => (.punct t, s))
    else (lexRegexp U cs).map (fun t => (.regexp t.1 t.2, s))
  else if c = 96 then templAt true s cs
  else if c = 123 then .ok (.punct [123], { s with level := s.level + 1 }) cs
  else if c = 125 then
    if s.templs.head? = some s.level then templAt false s cs
    else .ok (.punct [125], { s with level := s.level - 1 }) cs
  else if c = 92 then
    if cs.head? = some 117 then (lexIdent U (c :: cs)).map (fun t => (.ident t, s))
    else (lexPunct (c :: cs)).map (fun t => (.punct t, s))
  else if c = 35 then (lexPrivate U cs).map (fun t => (.priv t, s))
  else if isDigit c then (lexNumber U m.strict (c :: cs)).map (fun t => (.num t, s))
  else if U.isStart c then (lexIdent U (c :: cs)).map (fun t => (.ident t, s))
  else (lexPunct (c :: cs)).map (fun t => (.punct t, s))

/-- The text where the first token may have a comment in front (rjs_lex.c:1286-1308). -/
def begin (s : St) (cs : List Nat) : List Nat := if s.first then hashbang cs else cs

/-- `rjs_lex_get_token` (rjs_lex.c:1278-1432). -/
def token (U : Uni) (m : Mode) (s : St) (cs : List Nat) : Out (Tok × St) :=
  match skip U .space (begin s cs) with
  | .none => .err
  | some [] => .ok (.fin, { s with first := false }) []
  | some (c :: r) => tokenAt U m { s with first := false } c r

/-- The state at the beginning (`rjs_lex_init`, rjs_lex.c:94-106). -/
def St.init : St := ⟨0, [], true⟩

/-- The tokens that calls of `rjs_lex_get_token` give, one call for each mode. -/
def tokens (U : Uni) : List Mode → St → List Nat → Out (List Tok)
  | [], _, cs => .ok [] cs
  | m :: ms, s, cs =>
    match token U m s cs with
    | .ok (t, s') rest => (tokens U ms s' rest).map (t :: ·)
    | .err => .err
    | .undef => .undef
    | .fuel => .fuel

end Verif.Lex
