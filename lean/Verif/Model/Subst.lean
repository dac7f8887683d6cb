import Verif.Model.Str
/-
Model of `rjs_get_substitution` (`/repo/src/lib/rjs_string.c`:1405-1572).
-/
namespace Verif.Str

/-- The arguments after conversion (lines 1426-1467).  The captures have been read from the
match result (a capture may be undefined), `groups` is the property `groups` of the
result: undefined, or an object whose properties are read with user code which may
throw (`none`) or give undefined. -/
structure Match where
  str : List Nat
  pos : Nat
  matched : List Nat
  caps : List (Option (List Nat))
  groups : Option (List Nat → Option (Option (List Nat)))

inductive Res where
  /-- A read outside of a string. -/
  | ub
  /-- An exception of user code. -/
  | throw
  | ok (s : List Nat)

/-- `$` and digits (lines 1526-1551): the number of the capture, the literal text, the rest of
the template. -/
def capNumber (cn : Nat) (d : Nat) (t : List Nat) : Nat × List Nat × List Nat :=
  match t with
  | [] => (d - 48, [36, d], [])
  | e :: t' =>
    if isDigit e && decide ((d - 48) * 10 + (e - 48) < cn) then
      ((d - 48) * 10 + (e - 48), [36, d, e], t')
    else (d - 48, [36, d], e :: t')

/-- `*ne != '>'` (lines 1497-1501). -/
def notGt (c : Nat) : Bool := c != 62

/-- The loop over the template (lines 1469-1564).  Every round takes something off the
template; the first argument bounds the number of rounds. -/
def substLoop (m : Match) : Nat → List Nat → List Nat → Res
  | 0, _, _ => .ub
  | _ + 1, [], acc => .ok acc
  | f + 1, c :: t, acc =>
    if c ≠ 36 then substLoop m f t (acc ++ [c])
    else
      match t with
      | [] => substLoop m f [] (acc ++ [36])
      | d :: t' =>
        if d = 36 then substLoop m f t' (acc ++ [36])
        else if d = 96 then
          match substr m.str 0 m.pos with
          | none => .ub
          | some s => substLoop m f t' (acc ++ s)
        else if d = 38 then substLoop m f t' (acc ++ m.matched)
        else if d = 39 then
          match substr m.str (m.pos + m.matched.length) m.str.length with
          | none => .ub
          | some s => substLoop m f t' (acc ++ s)
        else if d = 60 then
          match t'.dropWhile notGt, m.groups with
          | _ :: rest, some g =>
            match g (t'.takeWhile notGt) with
            | none => .throw
            | some none => substLoop m f rest acc
            | some (some v) => substLoop m f rest (acc ++ v)
          | _, _ => substLoop m f t' (acc ++ [36, 60])
        else if isDigit d then
          match capNumber (m.caps.length + 1) d t' with
          | (n, lit, rest) =>
            if n = 0 ∨ n ≥ m.caps.length + 1 then substLoop m f rest (acc ++ lit)
            else
              match m.caps[n - 1]? with
              | none => .ub
              | some none => substLoop m f rest acc
              | some (some v) => substLoop m f rest (acc ++ v)
        else substLoop m f (d :: t') (acc ++ [36])

/-- `rjs_get_substitution`. -/
def getSubstitution (m : Match) (templ : List Nat) : Res :=
  substLoop m (templ.length + 1) templ []

end Verif.Str
