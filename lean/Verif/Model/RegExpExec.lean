import Verif.Model.RegExp
/-
Model of `rjs_regexp_builtin_exec`, /repo/src/lib/rjs_regexp.c 2805-3011, and of the tests on one
character, 1826-1848, 1963-1967, 2075-2159, 2341-2397.

Simplifications: reading and writing the property `lastIndex` of the regular expression does not
throw; the value read is already an integer (`rjs_to_length`); the substrings in the result array
are their limits; the properties `index`, `input`, `groups`, `indices` other than `index` are left
out.
-/
namespace Verif.RegExp

/-- `regexp_adv_str_index` (/repo/src/lib/rjs_regexp.c 1941-1960). -/
def advance (C : Ctx) (idx : Nat) : Nat :=
  if C.u = false then idx + 1
  else match C.str[idx]? with
    | none => idx + 1
    | some c =>
      if isLead c = false then idx + 1
      else match C.str[idx + 1]? with
        | none => idx + 1
        | some c2 => if isTrail c2 then idx + 2 else idx + 1

/-- What `exec` did: the value written to `lastIndex` (`none`: not written) and the answer; for a
match the position and for every group the limits of the string stored in the result array
(`none`: no element was stored). -/
inductive Exec where
  | ub
  | null (last : Option Nat)
  | found (index : Nat) (groups : Nat → Option (Nat × Nat)) (last : Option Nat)

/-- The element of the result array for group `i` (/repo/src/lib/rjs_regexp.c 2893-2894 for 0,
2931-2951 for the others). -/
def element (v : Vec) (i : Nat) : Option (Nat × Nat) :=
  match v (2 * i), v (2 * i + 1) with
  | some s, some e => if e < s then some (e, s) else some (s, e)
  | _, _ => none

/-- The loop of `rjs_regexp_builtin_exec` and what is done after it
(/repo/src/lib/rjs_regexp.c 2847-2979).  `g`, `y` are the flags; at most `rounds` positions, at
most `fuel` rounds of the matcher for each (`none`: not enough). -/
def execLoop (C : Ctx) (d : Alts) (g y : Bool) (fuel : Nat) : Nat → Nat → Option Exec
  | 0, _ => none
  | rounds + 1, idx =>
    if C.str.length < idx then some (.null (if g || y then some 0 else none))
    else match run C fuel (start d idx) with
      | none => none
      | some (.run _) => none
      | some .ub => some .ub
      | some (.done false _) =>
        if y then some (.null (some 0)) else execLoop C d g y fuel rounds (advance C idx)
      | some (.done true v) =>
        match v 0, v 1 with
        | some s, some e =>
          if s ≤ e then
            some (.found idx (fun i => if i < C.n then element v i else none)
              (if g || y then some e else none))
          else some .ub
        | _, _ => some .ub

/-- `rjs_regexp_builtin_exec` with the value `last` of `lastIndex`
(/repo/src/lib/rjs_regexp.c 2840-2844). -/
def exec (C : Ctx) (d : Alts) (g y : Bool) (last fuel rounds : Nat) : Option Exec :=
  execLoop C d g y fuel rounds (if g || y then last else 0)

/-! Tests on one character -/

/-- `rjs_uchar_is_digit`, `rjs_uchar_is_alpha`, `is_word`, `rjs_uchar_is_line_terminator`
(/repo/src/lib/include/rjs_uchar.h 57-98, 158-161; /repo/src/lib/rjs_regexp.c 1963-1967). -/
def isDigit (c : Nat) : Bool := decide (48 ≤ c ∧ c ≤ 57)
def isAlpha (c : Nat) : Bool := decide (97 ≤ c ∧ c ≤ 122) || decide (65 ≤ c ∧ c ≤ 90)
def isWord (c : Nat) : Bool := isAlpha c || isDigit c || decide (c = 95)
def isLineEnd (c : Nat) : Bool := decide (c = 0x0a ∨ c = 0x0d ∨ c = 0x2028 ∨ c = 0x2029)

/-- `RJS_RegExpCharType` with its data (/repo/src/lib/rjs_regexp.c 35-64); `\p`, `\P` are left
out. -/
inductive CharKind where
  | s | d | w | S | D | W
  | normal (c : Nat)

/-- `RJS_RegExpClassAtom` (/repo/src/lib/rjs_regexp.c 67-76). -/
inductive ClassAtom where
  | one (k : CharKind)
  | range (min max : Nat)

/-- `match_char` (/repo/src/lib/rjs_regexp.c 2075-2116); `white` is `rjs_uchar_is_white_space`,
`canon` is `canonicalize` under the flags. -/
def matchChar (white : Nat → Bool) (canon : Nat → Nat) : CharKind → Nat → Bool
  | .s, c => white c
  | .d, c => isDigit c
  | .w, c => isWord c
  | .S, c => !white c
  | .D, c => !isDigit c
  | .W, c => !isWord c
  | .normal k, c => decide (canon c = canon k)

/-- `match_class_atom` (/repo/src/lib/rjs_regexp.c 2119-2135). -/
def matchClassAtom (white : Nat → Bool) (canon : Nat → Nat) : ClassAtom → Nat → Bool
  | .one k, c => matchChar white canon k c
  | .range min max, c => decide (canon min ≤ canon c ∧ canon c ≤ canon max)

/-- `match_class` (/repo/src/lib/rjs_regexp.c 2138-2159). -/
def matchClass (white : Nat → Bool) (canon : Nat → Nat) (reverse : Bool) :
    List ClassAtom → Nat → Bool
  | [], _ => reverse
  | a :: as, c => if matchClassAtom white canon a c then !reverse
                  else matchClass white canon reverse as c

/-- The case `ALL` of `match_atom` (/repo/src/lib/rjs_regexp.c 2348-2356), `s` is the flag. -/
def matchAll (s : Bool) (c : Nat) : Bool := s || !isLineEnd c

/-- `^` (/repo/src/lib/rjs_regexp.c 2364-2373), `m` is the flag. -/
def lineStart (m : Bool) (before _at : Option Nat) : Bool :=
  match before with
  | none => true
  | some c => m && isLineEnd c

/-- `$` (/repo/src/lib/rjs_regexp.c 2374-2383). -/
def lineEnd (m : Bool) (_before here : Option Nat) : Bool :=
  match here with
  | none => true
  | some c => m && isLineEnd c

/-- `is_word` of what `get_char` gave; −1 is no word character. -/
def wordAt : Option Nat → Bool
  | none => false
  | some c => isWord c

/-- `\b` and `\B` (/repo/src/lib/rjs_regexp.c 2384-2397). -/
def boundary (neg : Bool) (before here : Option Nat) : Bool :=
  if neg then wordAt before == wordAt here else !(wordAt before == wordAt here)

end Verif.RegExp
