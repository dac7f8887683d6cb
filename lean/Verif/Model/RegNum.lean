/-!
# Numbers in regular expressions: quantifiers and back references

`parse_regexp_number`, the part of `parse_term` that reads quantifiers and `\1`, and the check of the back
references (rjs_regexp.c:1047-1077, 1276-1294, 1325-1387, 1468-1474).

Simplifications: the text is a list of characters (`get_uc`, `unget_uc` at its end give −1, which is no digit);
a signed number that leaves its type is the outcome `ub`.
-/

namespace Verif.RegNum

/-- A value and the text behind it; a SyntaxError; undefined behaviour of C. -/
inductive Res (α : Type) where
  | ok (v : α) (rest : List Char)
  | syntax
  | ub
  deriving DecidableEq

/-- `rjs_uchar_is_digit` with `c - '0'`. -/
def digit (c : Char) : Option Nat :=
  if '0'.toNat ≤ c.toNat ∧ c.toNat ≤ '9'.toNat then some (c.toNat - '0'.toNat) else none

/-- The loop over the digits (rjs_regexp.c:1062-1073, 1281-1290): `v *= 10; v += c - '0'` in a signed type
whose greatest number is `lim`. -/
def digits (lim : Nat) : Nat → List Char → Res Nat
  | v, [] => .ok v []
  | v, c :: r =>
    match digit c with
    | none => .ok v (c :: r)
    | some d =>
      if lim < v * 10 then .ub
      else if lim < v * 10 + d then .ub
      else digits lim (v * 10 + d) r

/-- `INT64_MAX`, `INT_MAX`. -/
def int64Max : Nat := 2 ^ 63 - 1
def intMax : Nat := 2 ^ 31 - 1

/-- `parse_regexp_number` (rjs_regexp.c:1047-1077), an `int64_t`. -/
def number : List Char → Res Nat
  | [] => .syntax
  | c :: r =>
    match digit c with
    | none => .syntax
    | some d => digits int64Max d r

/-- Minimum, maximum (`none`: −1), greedy. -/
structure Quant where
  min : Nat
  max : Option Nat
  greedy : Bool
  deriving DecidableEq

/-- The `?` behind a quantifier (rjs_regexp.c:1379-1385). -/
def lazy (min : Nat) (max : Option Nat) : List Char → Res Quant
  | '?' :: r => .ok ⟨min, max, false⟩ r
  | r => .ok ⟨min, max, true⟩ r

/-- The second number in braces (rjs_regexp.c:1350-1363). -/
def second (n : Nat) (t : List Char) : Res Quant :=
  match number t with
  | .ub => .ub
  | .syntax => .syntax
  | .ok m r =>
    if m < n then .syntax
    else match r with
      | '}' :: r => lazy n (some m) r
      | _ => .syntax

/-- Behind the first number (rjs_regexp.c:1346-1372). -/
def behind (n : Nat) : List Char → Res Quant
  | ',' :: '}' :: r => lazy n none r
  | ',' :: r => second n r
  | '}' :: r => lazy n (some n) r
  | _ => .syntax

/-- Behind `{` (rjs_regexp.c:1342-1372). -/
def braces (t : List Char) : Res Quant :=
  match number t with
  | .ub => .ub
  | .syntax => .syntax
  | .ok n r => behind n r

/-- The quantifier of an atom (rjs_regexp.c:1325-1387, 1150-1151). -/
def quant : List Char → Res Quant
  | '?' :: r => lazy 0 (some 1) r
  | '+' :: r => lazy 1 none r
  | '*' :: r => lazy 0 none r
  | '{' :: r => braces r
  | r => .ok ⟨1, some 1, true⟩ r

/-- A back reference behind `\` that begins with a digit from 1 to 9 (rjs_regexp.c:1276-1294), an `int`; with
the check at the end of the pattern (1469-1470), which has `groups` as `group_num` (0 is the whole match). -/
def backRef (groups : Nat) : List Char → Res Nat
  | [] => .syntax
  | c :: r =>
    match digit c with
    | none | some 0 => .syntax
    | some d =>
      match digits intMax d r with
      | .ok v r => if groups ≤ v then .syntax else .ok v r
      | .syntax => .syntax
      | .ub => .ub

/-- The number of an `int` kept modulo 2^32, as compilers usually make it. -/
def wrap (v : Int) : Int := (v + 2 ^ 31) % 2 ^ 32 - 2 ^ 31

/-- The loop 1281-1290 so compiled. -/
def digitsWrap : Int → List Char → Int
  | v, [] => v
  | v, c :: r =>
    match digit c with
    | none => v
    | some d => digitsWrap (wrap (wrap (v * 10) + d)) r

/-- `term->t.br.index >= p->group_num` fails, so the pattern is taken (rjs_regexp.c:1470). -/
def taken (groups : Nat) (index : Int) : Bool := index < groups

end Verif.RegNum
