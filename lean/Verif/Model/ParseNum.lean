import Verif.Model.StrNum

/-!
Model of `parseFloat` (`/repo/src/lib/rjs_global_object.c`:131-174), `parseInt` (176-240), `rjs_strtoi`
(`/repo/src/lib/rjs_strtoi.c`:36-107) and `rjs_string_trim` (`/repo/src/lib/rjs_string.c`:1101-1140).

The string becomes UTF-8 (`rjs_string_to_enc_chars`) and is read as a C string, which ends at the first
null character.  Code units from 128 on become bytes from 128 on, none of which is tested for by the code;
the model keeps the units.  `isspace` and `isdigit` are taken to be false for these bytes (they are called
with negative values where `char` is signed, which C does not define; glibc answers).

`errno` is not reset before `rjs_strtod` is called: whether it is `ERANGE` already is a parameter.
-/
namespace Verif.StrNum
open Json (Uni isDigit)

/-- `rjs_string_trim` at both ends (rjs_string.c:1118-1136). -/
def trim (U : Uni) (s : List Nat) : List Nat :=
  ((s.dropWhile U.isWhite).reverse.dropWhile U.isWhite).reverse

/-- The C string. -/
def cstr (s : List Nat) : List Nat := s.takeWhile (· != 0)

/-- `parseFloat`, the string given (rjs_global_object.c:150-167).  `erange`: `errno` is `ERANGE` before. -/
def parseFloat {F : Type} (U : Uni) (L : Lib F) (erange : Bool) (s : List Nat) : Res F :=
  match strtod (cstr (trim U s)) with
  | .undef => .undef
  | .none => .val L.nan
  | .inf neg _ => .val (if erange then L.nan else if neg then L.neg L.inf else L.inf)
  | .dec neg m e _ => .val (if L.huge m e then L.nan else L.dec neg m e)

/-- `isspace`. -/
def isSpace (c : Nat) : Bool := (9 ≤ c && c ≤ 13) || c == 32

/-- White space and the sign (rjs_strtoi.c:44-57): sign and rest. -/
def strtoiSign (cs : List Nat) : Bool × List Nat :=
  match cs.dropWhile isSpace with
  | [] => (false, [])
  | c :: r => if c = 43 then (false, r) else if c = 45 then (true, r) else (false, c :: r)

/-- "0x" (rjs_strtoi.c:59-67): base and rest. -/
def strtoiBase (base : Nat) (cs : List Nat) : Nat × List Nat :=
  match cs with
  | 48 :: c :: r =>
    if (base = 0 ∨ base = 16) ∧ (c = 120 ∨ c = 88) then (16, r) else (if base = 0 then 10 else base, cs)
  | _ => (if base = 0 then 10 else base, cs)

/-- A digit of the base (rjs_strtoi.c:75-94). -/
def isBaseDigit (base c : Nat) : Bool :=
  if base ≤ 10 then 48 ≤ c && c ≤ 48 + base - 1
  else isDigit c || (97 ≤ c && c ≤ 97 + base - 11) || (65 ≤ c && c ≤ 65 + base - 11)

/-- The double that is a natural number, made by products and sums: infinity from 2^1024 on, which becomes
NaN (rjs_global_object.c:231-232). -/
def intResult {F : Type} (L : Lib F) (neg : Bool) (n : Nat) : F :=
  if 2 ^ 1024 ≤ n then L.nan else if neg then L.neg (L.ofNat n) else L.ofNat n

/-- `parseInt`, the string and `ToInt32` of the radix given (rjs_global_object.c:203-235). -/
def parseInt {F : Type} (U : Uni) (L : Lib F) (s : List Nat) (radix : Int) : Res F :=
  if radix ≠ 0 ∧ (radix < 2 ∨ 36 < radix) then .val L.nan
  else
    let c := cstr (trim U s)
    if c.isEmpty then .val L.nan
    else
      let sg := strtoiSign c
      let b := strtoiBase radix.toNat sg.2
      if b.1 = 10 then
        match strtod c with
        | .undef => .undef
        | .none => .val L.nan
        | .inf _ _ => .val L.nan
        | .dec neg m e _ => .val (if L.huge m e then L.nan else L.dec neg m e)
      else if (b.2.dropWhile (isBaseDigit b.1)).length = c.length then .val L.nan
      else .val (intResult L sg.1 (acc b.1 (b.2.takeWhile (isBaseDigit b.1))))

end Verif.StrNum
