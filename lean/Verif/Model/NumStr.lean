/-
Model of the layout of numbers as strings, `rjs_number_to_string` (`/repo/src/lib/rjs_number.c:
255-339`), the part for numbers which are not array indices.  The shortest digits come from
`rjs_dtoa` (`/repo/src/lib/rjs_dtoa.c`, David Gay's function), which is not modelled: `ds` are
its digits, `decpt` the position of the decimal point.
-/
namespace Verif.NumStr

/-- The character of a digit. -/
def chr (d : Nat) : Nat := d + 48

/-- `for (v = 10; v <= left; v *= 10);` (line 322).  The amount of fuel is never used up. -/
def upLoop : Nat → Nat → Nat → Nat
  | 0, v, _ => v
  | fuel + 1, v, left => if v ≤ left then upLoop fuel (v * 10) left else v

/-- `for (v /= 10; v > 0; v /= 10) { *dc ++ = left / v + '0'; left %= v; }` (lines 323-328); `v` is
already divided. -/
def downLoop : Nat → Nat → Nat → List Nat
  | 0, _, _ => []
  | fuel + 1, v, left => if v > 0 then chr (left / v) :: downLoop fuel (v / 10) (left % v) else []

/-- Copying `n` characters from `sc` (lines 287-288, 292-293, 302-303); `none`: a read past the
end of the digits. -/
def copy (n : Nat) (ds : List Nat) : Option (List Nat × List Nat) :=
  if n ≤ ds.length then some ((ds.take n).map chr, ds.drop n) else none

/-- The part behind the point in the exponential form (lines 308-312). -/
def fraction (kv : Int) (rest : List Nat) : Option (List Nat) :=
  if kv ≠ 1 then
    match copy (kv - 1).toNat rest with
    | some (b, _) => some (46 :: b)
    | none => none
  else some []

/-- The text without the sign (lines 283-329). -/
def body (ds : List Nat) (nv : Int) : Option (List Nat) :=
  let kv : Int := ds.length
  if kv ≤ nv ∧ nv ≤ 21 then
    match copy ds.length ds with
    | some (a, _) => some (a ++ List.replicate (nv - kv).toNat 48)
    | none => none
  else if 0 < nv ∧ nv ≤ 21 then
    match copy nv.toNat ds with
    | some (a, rest) =>
      match copy (kv - nv).toNat rest with
      | some (b, _) => some (a ++ 46 :: b)
      | none => none
    | none => none
  else if -6 < nv ∧ nv ≤ 0 then
    match copy ds.length ds with
    | some (a, _) => some (48 :: 46 :: (List.replicate (-nv).toNat 48 ++ a))
    | none => none
  else
    match copy 1 ds with
    | some (a, rest) =>
      match fraction kv rest with
      | some mid =>
        let (s, left) := if nv - 1 < 0 then (45, (1 - nv).toNat) else (43, (nv - 1).toNat)
        some (a ++ mid ++ 101 :: s :: downLoop (left + 2) (upLoop (left + 1) 10 left / 10) left)
      | none => none
    | none => none

/-- The outcome: the string, a read outside of the digits, or a write outside of the buffer. -/
inductive Res where
  | ok (s : List Nat)
  | readUb
  | writeUb
deriving DecidableEq

/-- The sign, the text and the zero at the end, written to `sbuf` of 64 characters (lines 274-281,
331). -/
def fmt (neg : Bool) (ds : List Nat) (decpt : Int) : Res :=
  match body ds decpt with
  | none => .readUb
  | some b =>
    let out := (if neg then [45] else []) ++ b
    if out.length + 1 ≤ 64 then .ok out else .writeUb

end Verif.NumStr
