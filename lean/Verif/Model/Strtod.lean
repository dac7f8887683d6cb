import Verif.Model.Json

/-!
Model of the reading part of `rjs_strtod` (`/repo/src/lib/rjs_dtoa.c`:3471-3715): from the text to the
sign, the digits as an integer m and the exponent e of m · 10^e, and the place where the number ends.
The rest of the function (lines 3716-4890) computes the double nearest to m · 10^e and sets `errno`; it
is a parameter (`Lib.dec`, `Lib.huge`).

The configuration is that of lines 211-223: `INFNAN_CHECK` is defined, `NO_HEX_FP` too, `USE_LOCALE` and
`Honor_FLT_ROUNDS` are not; `Long` is `int` (line 253).  The text ends with its list (a null character).
-/
namespace Verif.StrNum
open Json (isDigit)

/-- What the code takes from elsewhere. -/
structure Lib (F : Type) where
  /-- The double nearest to m · 10^e, or minus that (rjs_dtoa.c:3716-4890). -/
  dec : Bool → Nat → Int → F
  /-- m · 10^e is too large for a double: `goto ovfl`, the result is infinite, `errno` is `ERANGE`. -/
  huge : Nat → Int → Bool
  /-- The double that is this natural number. -/
  ofNat : Nat → F
  neg : F → F
  inf : F
  nan : F
  zero : F

/-- What reading gave. -/
inductive Scan
  /-- Overflow of an `int`. -/
  | undef
  /-- `ret0`: no number, `*se` is the start, the result 0. -/
  | none
  | inf (neg : Bool) (rest : List Nat)
  | dec (neg : Bool) (m : Nat) (e : Int) (rest : List Nat)
  deriving DecidableEq

/-- Small letter (rjs_dtoa.c:2580-2581). -/
def lower (c : Nat) : Nat := if 65 ≤ c ∧ c ≤ 90 then c + 32 else c

/-- `match` (rjs_dtoa.c:2573-2587), on what is behind `*sp`. -/
def matchText : List Nat → List Nat → Option (List Nat)
  | [], cs => some cs
  | _ :: _, [] => none
  | d :: t, c :: cs => if lower c = d then matchText t cs else none

/-- `while((c = *++s) >= '0' && c <= '9') L = 10*L + c - '0';` (rjs_dtoa.c:3661-3662); `none` if
`10*L + c` is no `int`. -/
def expLoop : Nat → List Nat → Option (Nat × List Nat)
  | L, [] => some (L, [])
  | L, c :: cs =>
    if isDigit c then
      if 2147483647 < 10 * L + c then none else expLoop (10 * L + c - 48) cs
    else some (L, c :: cs)

/-- The limit (rjs_dtoa.c:3663-3669). -/
def expCap (digits L : Nat) : Nat := if 8 < digits ∨ 19999 < L then 19999 else L

/-- Skipping `0` (rjs_dtoa.c:3656-3657, 3557). -/
def skipZeros (cs : List Nat) : List Nat := cs.dropWhile (· == 48)

/-- The digits of the exponent, the first of them known to be one (rjs_dtoa.c:3655-3675). -/
def expNumber (cs : List Nat) : Option (Nat × List Nat) :=
  match skipZeros cs with
  | [] => some (0, [])
  | c :: r =>
    if isDigit c then
      match expLoop (c - 48) r with
      | none => none
      | some (L, rest) => some (expCap ((c :: r).length - rest.length) L, rest)
    else some (0, c :: r)

/-- The sign of the exponent (rjs_dtoa.c:3649-3654). -/
def expSign' : List Nat → Bool × List Nat
  | [] => (false, [])
  | c :: cs => if c = 45 then (true, cs) else if c = 43 then (false, cs) else (false, c :: cs)

/-- The exponent (rjs_dtoa.c:3641-3679), except for `goto ret0`: exponent and rest. -/
def scanExp : List Nat → Option (Int × List Nat)
  | [] => some (0, [])
  | c :: cs =>
    if c = 101 ∨ c = 69 then
      if ((expSign' cs).2.head?.map isDigit).getD false then
        match expNumber (expSign' cs).2 with
        | none => none
        | some (e, rest) => some (if (expSign' cs).1 then -(e : Int) else e, rest)
      else some (0, c :: cs)
    else some (0, c :: cs)

/-- The digits behind the point (rjs_dtoa.c:3595-3638): m, the number `nf` of digits of m behind the
point, and the number `nz` of zeros that wait.  With `nd == 0` the code counts the first zeros in a loop of
its own, which comes to the same. -/
def fracLoop : Nat → Nat → Nat → List Nat → Nat × Nat × Nat × List Nat
  | m, nf, nz, [] => (m, nf, nz, [])
  | m, nf, nz, c :: cs =>
    if isDigit c then
      if c = 48 then fracLoop m nf (nz + 1) cs
      else fracLoop (m * 10 ^ (nz + 1) + (c - 48)) (nf + (nz + 1)) 0 cs
    else (m, nf, nz, c :: cs)

/-- The digits before the point as an integer. -/
def intValue (ds : List Nat) : Nat := ds.foldl (fun n c => 10 * n + (c - 48)) 0

/-- "Infinity" or "Inf" (rjs_dtoa.c:3683-3694). -/
def scanInf (neg : Bool) : List Nat → Scan
  | 73 :: cs =>
    match matchText [110, 102] cs with
    | none => .none
    | some r =>
      match matchText [105, 110, 105, 116, 121] r with
      | none => .inf neg r
      | some r' => .inf neg r'
  | _ => .none

/-- From `dig_done` on (rjs_dtoa.c:3640-3715).  `nd`: there are digits that count; `zero`: `nz || nz0`;
`point`: `bc.dplen`. -/
def scanEnd (neg nd zero point : Bool) (m nf : Nat) (cs : List Nat) : Scan :=
  if nd = false ∧ zero = false then
    if point then .none else scanInf neg cs
  else
    match scanExp cs with
    | none => .undef
    | some (e, rest) => if nd then .dec neg m (e - nf) rest else .dec neg 0 0 rest

/-- Behind the sign (rjs_dtoa.c:3540-3715). -/
def scanNum (neg : Bool) (cs : List Nat) : Scan :=
  let nz0 := cs.head? == some 48
  let r := skipZeros cs
  if nz0 && r.isEmpty then .dec neg 0 0 []
  else
    let ds := r.takeWhile isDigit
    match r.dropWhile isDigit with
    | 46 :: r' =>
      match fracLoop (intValue ds) 0 0 r' with
      | (m, nf, nz, rest) => scanEnd neg (!ds.isEmpty || nf != 0) (nz != 0 || nz0) true m nf rest
    | r' => scanEnd neg (!ds.isEmpty) nz0 false (intValue ds) 0 r'

/-- `rjs_strtod` (rjs_dtoa.c:3471-3539): white space and the sign. -/
def strtod : List Nat → Scan
  | [] => .none
  | c :: cs =>
    if c = 45 then if cs.isEmpty then .none else scanNum true cs
    else if c = 43 then if cs.isEmpty then .none else scanNum false cs
    else if c = 9 ∨ c = 10 ∨ c = 11 ∨ c = 12 ∨ c = 13 ∨ c = 32 then strtod cs
    else scanNum false (c :: cs)

/-- The result of `rjs_strtod`. -/
def scanValue {F : Type} (L : Lib F) : Scan → F
  | .undef => L.nan
  | .none => L.dec false 0 0
  | .inf neg _ => if neg then L.neg L.inf else L.inf
  | .dec neg m e _ => L.dec neg m e

end Verif.StrNum
