/-
Model of the string functions of `/repo/src/lib/rjs_string.c`.

A string is the list of its UTF-16 code units.  A read which is not inside the string, and a
write outside the buffer of the result, is `none`.
-/
namespace Verif.Str

/-- `RJS_CompareResult` (`/repo/include/ratjs/rjs_operation.h`). -/
inductive Cmp where
  | equal
  | less
  | greater
deriving DecidableEq

/-- `rjs_string_compare` (rjs_string.c:1054-1089). -/
def compare : List Nat → List Nat → Cmp
  | c1 :: s1, c2 :: s2 =>
    if c1 < c2 then .less else if c1 > c2 then .greater else compare s1 s2
  | [], [] => .equal
  | _ :: _, [] => .greater
  | [], _ :: _ => .less

/-- `rjs_uchar_is_digit` (`/repo/src/lib/include/rjs_uchar.h`:57-60). -/
def isDigit (c : Nat) : Bool := 48 ≤ c && c ≤ 57

/-- `rjs_uchar_is_white_space` (`/repo/src/lib/rjs_uchar_icu_opt.c`:36): the Unicode property
`White_Space` (`u_isUWhiteSpace`, ICU) and U+FEFF. -/
def isWhite (c : Nat) : Bool :=
  (9 ≤ c && c ≤ 13) || c == 0x20 || c == 0x85 || c == 0xa0 || c == 0x1680 ||
  (0x2000 ≤ c && c ≤ 0x200a) || c == 0x2028 || c == 0x2029 || c == 0x202f || c == 0x205f ||
  c == 0x3000 || c == 0xfeff

/-! ### Array indices -/

/-- The loop over digits (rjs_string.c:512-524). -/
def digitsLoop : List Nat → Nat → Option (Nat × List Nat)
  | [], n => some (n, [])
  | c :: cs, n =>
    if isDigit c then
      if n * 10 + (c - 48) > 0xfffffffe then none else digitsLoop cs (n * 10 + (c - 48))
    else some (n, c :: cs)

/-- `rjs_string_to_index_internal` (rjs_string.c:483-541). -/
def toIndex (s : List Nat) : Option Nat :=
  match s.dropWhile isWhite with
  | [] => none
  | c :: cs =>
    if !isDigit c then none
    else
      match digitsLoop (c :: cs) 0 with
      | none => none
      | some (n, rest) => if rest.all isWhite then some n else none

/-- A property key after `prop_resolve` (rjs_object.c:194-218): an array index or the
interned string. -/
inductive Key where
  | index (i : Nat)
  | name (s : List Nat)
deriving DecidableEq

/-- `prop_resolve` (rjs_object.c:194-218) of a string value which is not an index string. -/
def resolve (s : List Nat) : Key :=
  match toIndex s with
  | some i => .index i
  | none => .name s

/-- `rjs_index_string_normalize` (rjs_string.c:1379-1391): `snprintf("%u")`. -/
def decimal (n : Nat) : List Nat :=
  if n < 10 then [48 + n] else decimal (n / 10) ++ [48 + n % 10]

/-! ### Search -/

/-- The inner loop of the search functions (rjs_string.c:1297-1305, 1352-1360): compare the
rest of the pattern with the string from position `t`. -/
def matchAt (s : List Nat) : Nat → List Nat → Option Bool
  | _, [] => some true
  | t, q :: qs =>
    match s[t]? with
    | none => none
    | some c => if q ≠ c then some false else matchAt s (t + 1) qs

/-- The outer loop of `rjs_string_index_of` (lines 1292-1311) with `n` positions left. -/
def indexLoop (s p : List Nat) : Nat → Nat → Option (Option Nat)
  | 0, _ => some none
  | n + 1, c =>
    match matchAt s c p with
    | none => none
    | some true => some (some c)
    | some false => indexLoop s p n (c + 1)

/-- `rjs_string_index_of` (rjs_string.c:1272-1314).  The inner `none` is -1. -/
def indexOf (s p : List Nat) (pos : Nat) : Option (Option Nat) :=
  if p.length = 0 ∧ pos ≤ s.length then some (some pos)
  else if pos > s.length ∨ s.length - pos < p.length then some none
  else indexLoop s p (s.length - p.length + 1 - pos) pos

/-- The outer loop of `rjs_string_last_index_of` (lines 1347-1366) from position `c` down. -/
def lastLoop (s p : List Nat) : Nat → Option (Option Nat)
  | 0 =>
    match matchAt s 0 p with
    | none => none
    | some true => some (some 0)
    | some false => some none
  | c + 1 =>
    match matchAt s (c + 1) p with
    | none => none
    | some true => some (some (c + 1))
    | some false => lastLoop s p c

/-- `rjs_string_last_index_of` (rjs_string.c:1326-1369). -/
def lastIndexOf (s p : List Nat) (pos : Nat) : Option (Option Nat) :=
  if s.length < p.length then some none
  else
    let pos := min pos (s.length - p.length)
    if p.length = 0 then some (some pos) else lastLoop s p pos

/-! ### Parts of strings -/

/-- `rjs_string_substr` (rjs_string.c:974-993).  A violated `assert` is a read outside the
string. -/
def substr (s : List Nat) (start e : Nat) : Option (List Nat) :=
  if e ≤ s.length ∧ start ≤ e then some ((s.take e).drop start) else none

/-- The loop at the start of `rjs_string_trim` (lines 1121-1125): position `b`. -/
def trimStart (s : List Nat) : Nat → Nat → Option Nat
  | 0, b => some b
  | n + 1, b =>
    match s[b]? with
    | none => none
    | some c => if !isWhite c then some b else trimStart s n (b + 1)

/-- The loop at the end (lines 1129-1133): position `e`, `n` characters left. -/
def trimEnd (s : List Nat) : Nat → Nat → Option Nat
  | 0, e => some e
  | n + 1, e =>
    match s[e - 1]? with
    | none => none
    | some c => if !isWhite c then some e else trimEnd s n (e - 1)

/-- `rjs_string_trim` (rjs_string.c:1101-1140) on a string, with the flags
`RJS_STRING_TRIM_START` and `RJS_STRING_TRIM_END`. -/
def trim (fstart fend : Bool) (s : List Nat) : Option (List Nat) :=
  match if fstart then trimStart s s.length 0 else some 0 with
  | none => none
  | some b =>
    match if fend then trimEnd s (s.length - b) s.length else some s.length with
    | none => none
    | some e => substr s b e

/-- Append to a buffer of `cap` code units (`RJS_ELEM_CPY(d, s, n); d += n`). -/
def copy (cap : Nat) (d : List Nat) (s : List Nat) (n : Nat) : Option (List Nat) :=
  if n ≤ s.length ∧ d.length + n ≤ cap then some (d ++ s.take n) else none

/-- The loop of `rjs_string_pad` (lines 1209-1219).  Each round takes something away from
`ilen`, as the filler is not empty; the first argument bounds the number of rounds. -/
def padLoop (cap : Nat) (p : List Nat) : Nat → Nat → List Nat → Option (List Nat)
  | 0, ilen, d => if ilen > 0 then none else some d
  | f + 1, ilen, d =>
    if ilen > 0 then
      if ilen ≥ p.length then
        match copy cap d p p.length with
        | none => none
        | some d => padLoop cap p f (ilen - p.length) d
      else
        match copy cap d p ilen with
        | none => none
        | some d => padLoop cap p f 0 d
    else some d

/-- `rjs_string_pad` (rjs_string.c:1154-1230) on converted arguments, with `atEnd` for
`RJS_STRING_PAD_END`.  The allocation is taken to succeed. -/
def pad (atEnd : Bool) (s : List Nat) (ilen : Nat) (p : List Nat) : Option (List Nat) :=
  if ilen < s.length then some s
  else if p.length = 0 then some s
  else
    match if atEnd then copy ilen [] s s.length else some [] with
    | none => none
    | some d =>
      match padLoop ilen p (ilen - s.length) (ilen - s.length) d with
      | none => none
      | some d => if atEnd then some d else copy ilen d s s.length

/-! ### Split and replace -/

/-- The loop of `String.prototype.split` (rjs_string_object_inc.c:1301-1317) with a separator
which is not empty: `n` elements are in the result, `limit` at most (the outer option is a
bad read or too many rounds). -/
def splitLoop (s sep : List Nat) (limit : Nat) :
    Nat → Nat → Option Nat → List (List Nat) → Option (List (List Nat))
  | 0, _, _, _ => none
  | f + 1, start, idx, acc =>
    match idx with
    | none =>
      match substr s start s.length with
      | none => none
      | some t => some (acc ++ [t])
    | some i =>
      match substr s start i with
      | none => none
      | some t =>
        if acc.length + 1 = limit then some (acc ++ [t])
        else
          match indexOf s sep (i + sep.length) with
          | none => none
          | some idx => splitLoop s sep limit f (i + sep.length) idx (acc ++ [t])

/-- The loop for an empty separator (lines 1278-1284). -/
def splitChars (s : List Nat) : Nat → Nat → Option (List (List Nat))
  | 0, _ => some []
  | n + 1, i =>
    match substr s i (i + 1) with
    | none => none
    | some t =>
      match splitChars s n (i + 1) with
      | none => none
      | some ts => some (t :: ts)

/-- `String.prototype.split` (rjs_string_object_inc.c:1258-1329) on strings. -/
def split (s sep : List Nat) (limit : Nat) : Option (List (List Nat)) :=
  if limit = 0 then some []
  else if sep.length = 0 then splitChars s (min limit s.length) 0
  else if s.length = 0 then some [s]
  else
    match indexOf s sep 0 with
    | none => none
    | some idx => splitLoop s sep limit (s.length + 1) 0 idx []

/-- The loop of `String.prototype.replaceAll` (rjs_string_object_inc.c:1087-1117); `rep pos`
is the replacement of the match at `pos`. -/
def replaceLoop (s p : List Nat) (rep : Nat → Option (List Nat)) :
    Nat → Nat → Option Nat → List Nat → Option (List Nat)
  | 0, _, _, _ => none
  | f + 1, start, idx, acc =>
    match idx with
    | none => some (if start < s.length then acc ++ s.drop start else acc)
    | some pos =>
      -- `append_uchars(s + start, pos - start)`
      match substr s start pos with
      | none => none
      | some t =>
        match rep pos with
        | none => none
        | some r =>
          let start' := pos + p.length
          match indexOf s p (if p.length ≠ 0 then start' else start' + 1) with
          | none => none
          | some idx => replaceLoop s p rep f start' idx (acc ++ t ++ r)

/-- `String.prototype.replaceAll` (rjs_string_object_inc.c:1079-1120) with a string to search
for. -/
def replaceAll (s p : List Nat) (rep : Nat → Option (List Nat)) : Option (List Nat) :=
  match indexOf s p 0 with
  | none => none
  | some idx => replaceLoop s p rep (s.length + 2) 0 idx []

end Verif.Str
