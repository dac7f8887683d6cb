/-
`GetSubstitution` of the language (ECMA-262 22.1.3.19.1), stated without reference to the
model.
-/
namespace Verif.Str.Spec

def isDec (c : Option Nat) : Bool :=
  match c with
  | some c => 48 ≤ c && c ≤ 57
  | none => false

/-- The value of a string of decimal digits. -/
def decValue (s : List Nat) : Nat := s.foldl (fun n c => n * 10 + (c - 48)) 0

/-- One step: the length of the part of the template which is used up, and its replacement
(`none` if user code throws). -/
def substStep (str : List Nat) (pos : Nat) (matched : List Nat)
    (caps : List (Option (List Nat))) (groups : Option (List Nat → Option (Option (List Nat))))
    (t : List Nat) : Nat × Option (List Nat) :=
  if t.take 2 = [36, 36] then (2, some [36])
  else if t.take 2 = [36, 96] then (2, some (str.take pos))
  else if t.take 2 = [36, 38] then (2, some matched)
  else if t.take 2 = [36, 39] then (2, some (str.drop (min (pos + matched.length) str.length)))
  else if t[0]? = some 36 ∧ isDec t[1]? = true then
    let digitCount := if isDec t[2]? then 2 else 1
    let digitCount :=
      if decValue ((t.drop 1).take digitCount) > caps.length ∧ digitCount = 2 then 1
      else digitCount
    let index := decValue ((t.drop 1).take digitCount)
    if 1 ≤ index ∧ index ≤ caps.length then
      (1 + digitCount, some ((caps[index - 1]?.getD none).getD []))
    else (1 + digitCount, some (t.take (1 + digitCount)))
  else if t.take 2 = [36, 60] then
    match t.findIdx? (· == 62), groups with
    | some gt, some g => (gt + 1, (g ((t.take gt).drop 2)).map (·.getD []))
    | _, _ => (2, some [36, 60])
  else (1, some (t.take 1))

/-- The whole template, by steps; `none` if user code throws.  The relation says that the
template is used up. -/
inductive Subst (str : List Nat) (pos : Nat) (matched : List Nat)
    (caps : List (Option (List Nat))) (groups : Option (List Nat → Option (Option (List Nat)))) :
    List Nat → Option (List Nat) → Prop where
  | nil : Subst str pos matched caps groups [] (some [])
  | throw (t n) : t ≠ [] → substStep str pos matched caps groups t = (n, none) →
      Subst str pos matched caps groups t none
  | step (t n r rest) : t ≠ [] → substStep str pos matched caps groups t = (n, some r) →
      Subst str pos matched caps groups (t.drop n) rest →
      Subst str pos matched caps groups t (rest.map (r ++ ·))

end Verif.Str.Spec
