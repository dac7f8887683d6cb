import Verif.Model.NumStr

/-!
Model of `toExponential`, `toFixed`, `toPrecision` and `toString` of numbers
(`/repo/src/lib/rjs_number_object_inc.c:241-662`), with the digits `rjs_dtoa` computes for a given
number of digits (`/repo/src/lib/rjs_dtoa.c:4993-6225`, modes 2 and 3).

Simplified: a finite number is a sign and a fraction `p / q`, which includes every double.  Of
`rjs_dtoa` the exact computation with large integers is modelled (lines 5754-6211); the faster ways
before it (5345-5753) are meant to give the same digits and leave to it what they cannot decide.  The
shortest digits (mode 0) and the text of `rjs_number_to_string` are given (`Verif.NumStr`).  The
argument is what `rjs_to_integer_or_infinity` makes of it.
-/
namespace Verif.NumText
open NumStr (chr upLoop downLoop)

/-- A number; `fin neg p q` is plus or minus `p / q`. -/
inductive Num where
  | nan
  | inf (neg : Bool)
  | fin (neg : Bool) (p q : Nat)
deriving DecidableEq

/-- The argument: missing or undefined, one whose conversion throws, or what the conversion gives. -/
inductive Arg where
  | undef
  | throws
  | int (z : Int)
  | inf (neg : Bool)
deriving DecidableEq

/-- How a call ends.  `readUb`, `writeUb`: an access outside of the digits or of `sbuf`; `castUb`: an
undefined conversion to `int64_t` or an overflow. -/
inductive Res where
  | text (s : List Nat)
  | typeError
  | rangeError
  | thrown
  | readUb
  | writeUb
  | castUb
deriving DecidableEq

/-- What is given: the text of `rjs_number_to_string`, the shortest digits of `p / q` with the position
of the point. -/
structure Lang where
  dec : Num → List Nat
  short : Nat → Nat → List Nat × Int

/-- The `k` with `10^k <= dd < 10^(k+1)` (rjs_dtoa.c:5171-5181) for numbers not below 1. -/
def findUp (p q : Nat) : Nat → Nat → Nat
  | 0, k => k
  | fuel + 1, k => if q * 10 ^ (k + 1) ≤ p then findUp p q fuel (k + 1) else k

/-- The same below 1; `j` is `-k`. -/
def findDown (p q : Nat) : Nat → Nat → Nat
  | 0, j => j
  | fuel + 1, j => if p * 10 ^ j < q then findDown p q fuel (j + 1) else j

/-- The integers `b` and `S` and the exponent `k` with `p / q = b / S * 10^k`, `S <= b < 10 * S`
(rjs_dtoa.c:5758-6028). -/
def scale (p q : Nat) : Nat × Nat × Int :=
  if q ≤ p then
    let k := findUp p q p 0
    (p, q * 10 ^ k, (k : Int))
  else
    let j := findDown p q q 0
    (p * 10 ^ j, q, -(j : Int))

/-- The loop that makes the digits (rjs_dtoa.c:6156-6168), the last digit first; `n` more digits are
wanted after this one.  The second part is what remains. -/
def gen (S : Nat) : Nat → Nat → List Nat → List Nat × Nat
  | 0, b, s => (b / S :: s, b % S)
  | n + 1, b, s => if b % S = 0 then (b / S :: s, 0) else gen S n (b % S * 10) (b / S :: s)

/-- Rounding up (rjs_dtoa.c:6188-6194), the last digit first; `none`: all digits were nines. -/
def roundoff : List Nat → Option (List Nat)
  | [] => none
  | d :: s => if d = 9 then roundoff s else some ((d + 1) :: s)

/-- Zeros at the end are removed (rjs_dtoa.c:6204-6205), the last digit first. -/
def strip : List Nat → List Nat
  | [] => []
  | d :: s => if d = 0 then strip s else d :: s

/-- Whether the last digit is rounded up (rjs_dtoa.c:6158-6184). -/
def up (S r : Nat) (s : List Nat) : Bool :=
  r ≠ 0 && (S < 2 * r || (2 * r = S && s.headD 0 % 2 = 1))

/-- `ilim` digits and the position of the point (rjs_dtoa.c:6155-6211). -/
def digits (b S : Nat) (k : Int) (ilim : Nat) : List Nat × Int :=
  let g := gen S (ilim - 1) b []
  if up S g.2 g.1 then
    match roundoff g.1 with
    | none => ([1], k + 2)
    | some s => ((strip s).reverse, k + 1)
  else ((strip g.1).reverse, k + 1)

/-- Mode 2: `n` digits (rjs_dtoa.c:5297-5304). -/
def dtoa2 (p q n : Nat) : List Nat × Int :=
  if p = 0 then ([0], 1)
  else
    let sc := scale p q
    digits sc.1 sc.2.1 sc.2.2 (if n = 0 then 1 else n)

/-- Mode 3: `n` digits behind the point (rjs_dtoa.c:5305-5313, 5347-5350, 6040-6050). -/
def dtoa3 (p q n : Nat) : List Nat × Int :=
  if p = 0 then ([0], 1)
  else
    let sc := scale p q
    let ilim : Int := n + sc.2.2 + 1
    if ilim < 0 then ([], -(n : Int))
    else if ilim = 0 then
      if sc.1 ≤ 5 * sc.2.1 then ([], -(n : Int)) else ([1], sc.2.2 + 2)
    else digits sc.1 sc.2.1 sc.2.2 ilim.toNat

/-- `n` characters: `(sc >= se) ? '0' : *sc ++`. -/
def copyPad : Nat → List Nat → List Nat × List Nat
  | 0, l => ([], l)
  | n + 1, [] => (48 :: (copyPad n []).1, (copyPad n []).2)
  | n + 1, d :: l => (chr d :: (copyPad n l).1, (copyPad n l).2)

/-- `n` characters `*sc ++` without a test; `none`: a read past the end. -/
def copy : Nat → List Nat → Option (List Nat × List Nat)
  | 0, l => some ([], l)
  | _ + 1, [] => none
  | n + 1, d :: l => (copy n l).map fun r => (chr d :: r.1, r.2)

/-- The exponent (rjs_number_object_inc.c:322-337, 530-545). -/
def expo (nv : Int) : List Nat :=
  let left := if nv - 1 < 0 then (1 - nv).toNat else (nv - 1).toNat
  101 :: (if nv - 1 < 0 then 45 else 43) :: downLoop (left + 2) (upLoop (left + 1) 10 left / 10) left

/-- The text written to `char sbuf[256]` with the zero at the end. -/
def out (neg : Bool) : Option (List Nat) → Res
  | none => .readUb
  | some t =>
    let s := (if neg then [45] else []) ++ t
    if s.length + 1 ≤ 256 then .text s else .writeUb

/-- Lines 314-337. -/
def expBody (frac : Int) (ds : List Nat) (nv : Int) : Option (List Nat) :=
  match copy 1 ds with
  | none => none
  | some (a, rest) =>
    some (a ++ (if frac > 0 then 46 :: (copyPad frac.toNat rest).1 else []) ++ expo nv)

/-- `Number_prototype_toExponential` (lines 265-349). -/
def toExponential (L : Lang) (this : Option Num) (a : Arg) : Res :=
  match this with
  | none => .typeError
  | some x =>
    match a with
    | .throws => .thrown
    | .undef =>
      match x with
      | .nan => .text (L.dec x)
      | .inf _ => .text (L.dec x)
      | .fin neg p q =>
        let d := if p = 0 then ([0], 1) else L.short p q
        out (neg && p ≠ 0) (expBody ((d.1.length : Int) - 1) d.1 d.2)
    | .inf _ =>
      match x with
      | .fin _ _ _ => .rangeError
      | _ => .text (L.dec x)
    | .int z =>
      match x with
      | .nan => .text (L.dec x)
      | .inf _ => .text (L.dec x)
      | .fin neg p q =>
        if z < 0 ∨ z > 100 then .rangeError
        else
          let d := dtoa2 p q (z.toNat + 1)
          out (neg && p ≠ 0) (expBody z d.1 d.2)

/-- At most `frac` of `n` characters are copied; what is left of `frac`, and of the digits (lines 416-421,
434-439). -/
def copyLim : Nat → Nat → List Nat → Option (List Nat × Nat)
  | 0, frac, _ => some ([], frac)
  | n + 1, frac, l =>
    if frac = 0 then some ([], 0)
    else
      match l with
      | [] => none
      | d :: l => (copyLim n (frac - 1) l).map fun r => (chr d :: r.1, r.2)

/-- Lines 396-446. -/
def fixedBody (frac : Nat) (ds : List Nat) (nv : Int) : Option (List Nat) :=
  let kv : Int := ds.length
  if kv ≤ nv then
    match (if ds.length ≠ 0 then (copy ds.length ds).map (fun r => (r.1, kv)) else some ([48], 1)) with
    | none => none
    | some (a, i) =>
      some (a ++ List.replicate (nv - i).toNat 48 ++ (if frac > 0 then [46] else []) ++ List.replicate frac 48)
  else if nv > 0 then
    match copy nv.toNat ds with
    | none => none
    | some (a, rest) =>
      if frac > 0 then
        match copyLim (kv - nv).toNat frac rest with
        | none => none
        | some (b, left) => some (a ++ 46 :: (b ++ List.replicate left 48))
      else some a
  else if frac > 0 then
    let z := min (-nv).toNat frac
    match copyLim ds.length (frac - z) ds with
    | none => none
    | some (b, left) => some (48 :: 46 :: (List.replicate z 48 ++ (b ++ List.replicate left 48)))
  else some [48]

/-- `Number_prototype_toFixed` (lines 352-458). -/
def toFixed (L : Lang) (this : Option Num) (a : Arg) : Res :=
  match this with
  | none => .typeError
  | some x =>
    match a with
    | .throws => .thrown
    | .inf _ => .rangeError
    | a =>
      let z : Int := match a with
        | .int z => z
        | _ => 0
      if z < 0 ∨ z > 100 then .rangeError
      else
        match x with
        | .nan => .text (L.dec x)
        | .inf _ => .text (L.dec x)
        | .fin neg p q =>
          if q * 10 ^ 21 ≤ p then .text (L.dec x)
          else
            let d := dtoa3 p q z.toNat
            out neg (fixedBody z.toNat d.1 d.2)

/-- Lines 516-564. -/
def precBody (prec : Nat) (ds : List Nat) (nv : Int) : Option (List Nat) :=
  let ev := nv - 1
  if ev < -6 ∨ ev ≥ prec then
    match copy 1 ds with
    | none => none
    | some (a, rest) =>
      some (a ++ (if prec ≠ 1 then 46 :: (copyPad (prec - 1) rest).1 else []) ++ expo nv)
  else if ev = prec - 1 then some (copyPad prec ds).1
  else if ev ≥ 0 then
    let r := copyPad (ev + 1).toNat ds
    some (r.1 ++ 46 :: (copyPad (prec - ev - 1).toNat r.2).1)
  else some (48 :: 46 :: (List.replicate (-(ev + 1)).toNat 48 ++ (copyPad prec ds).1))

/-- `Number_prototype_toPrecision` (lines 475-576). -/
def toPrecision (L : Lang) (this : Option Num) (a : Arg) : Res :=
  match this with
  | none => .typeError
  | some x =>
    match a with
    | .undef => .text (L.dec x)
    | .throws => .thrown
    | .inf _ =>
      match x with
      | .fin _ _ _ => .rangeError
      | _ => .text (L.dec x)
    | .int z =>
      match x with
      | .nan => .text (L.dec x)
      | .inf _ => .text (L.dec x)
      | .fin neg p q =>
        if z < 1 ∨ z > 100 then .rangeError
        else
          let d := dtoa2 p q z.toNat
          out (neg && p ≠ 0) (precBody z.toNat d.1 d.2)

/-- The character of a digit (lines 641-644). -/
def digitChar (n : Nat) : Nat := if n < 10 then n + 48 else n - 10 + 97

/-- The loop of lines 628-650; the characters already written are `acc`. -/
def radixLoop (radix : Nat) : Nat → Nat → List Nat → List Nat
  | 0, _, acc => acc
  | fuel + 1, left, acc =>
    if left < radix then digitChar left :: acc
    else radixLoop radix fuel (left / radix) (digitChar (left % radix) :: acc)

/-- `Number_prototype_toString` (lines 579-662). -/
def toStringR (L : Lang) (this : Option Num) (a : Arg) : Res :=
  match this with
  | none => .typeError
  | some x =>
    match a with
    | .throws => .thrown
    | .inf _ => .rangeError
    | .undef => .text (L.dec x)
    | .int z =>
      if z < 2 ∨ z > 36 then .rangeError
      else if z = 10 then .text (L.dec x)
      else
        match x with
        | .nan => .castUb
        | .inf _ => .castUb
        | .fin neg p q =>
          if (if neg then 2 ^ 63 < p / q else 2 ^ 63 ≤ p / q) then .castUb
          else if p / q * q = p then
            if neg ∧ p / q = 2 ^ 63 then .castUb
            else
              let s := (if neg ∧ p / q ≠ 0 then [45] else []) ++ radixLoop z.toNat (p / q + 1) (p / q) []
              if s.length + 1 ≤ 256 then .text s else .writeUb
          else .text (L.dec x)

end Verif.NumText
