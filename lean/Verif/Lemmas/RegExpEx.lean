import Verif.Lemmas.RegExpExec
import Verif.Lemmas.RegExpEval
/-
Concrete patterns and computed answers, for the examples and the counterexamples.
-/
namespace Verif.RegExp
open Spec (Match)

/-! Patterns for the examples -/

/-- one character -/
def ch (c : Nat) : Atom := .char fun x => decide (x = c)
/-- an atom once; `s`, `e` are the group counter before and after it -/
def once (a : Atom) (s e : Nat) : Term := ⟨a, 1, some 1, true, s, e⟩
/-- `a*` -/
def many (a : Atom) (s e : Nat) : Term := ⟨a, 0, none, true, s, e⟩

/-- `(a*)*` -/
def pStarStar : Alts := [[many (.group 1 [[many (ch 97) 2 2]]) 1 2]]
/-- `(?:|(a)){1,2}b` -/
def pOneTwo : Alts :=
  [[⟨.sub [[], [once (.group 1 [[once (ch 97) 2 2]]) 1 2]], 1, some 2, true, 1, 2⟩, once (ch 98) 2 2]]
/-- `(z)((a+)?(b+)?(c))*`, an example of the standard -/
def pZ : Alts :=
  [[once (.group 1 [[once (ch 122) 2 2]]) 1 2,
    many (.group 2 [[⟨.group 3 [[⟨ch 97, 1, none, true, 4, 4⟩]], 0, some 1, true, 3, 4⟩,
      ⟨.group 4 [[⟨ch 98, 1, none, true, 5, 5⟩]], 0, some 1, true, 4, 5⟩,
      once (.group 5 [[once (ch 99) 6 6]]) 5 6]]) 2 6]]
/-- `(?<=(a))b|(c)` -/
def pBack : Alts :=
  [[once (.look false false [[once (.group 1 [[once (ch 97) 2 2]]) 1 2]]) 1 2, once (ch 98) 2 2],
   [once (.group 2 [[once (ch 99) 3 3]]) 2 3]]

/-- Context of a string with `n - 1` groups, no flags. -/
def ctx (s : List Nat) (n : Nat) : Ctx := ⟨s, id, false, n⟩

/-- End and captures of the first way of the standard. -/
def stdOut (s : List Nat) (d : Alts) (pos n : Nat) :
    Option (Option (Nat × List (Option (Nat × Nat)))) :=
  (Spec.waysF ⟨s, id⟩ 100 true (.alts d) (Spec.init pos)).map fun ys =>
    ys.head?.map fun y => (y.pos, (List.range n).map y.caps)

/-- The same of a run of the program. -/
def engOut (C : Ctx) (d : Alts) (pos : Nat) : Option (Option (Option Nat × List (Option (Nat × Nat)))) :=
  (run C 400 (start d pos)).bind fun r => match r with
    | .done true v => some (some (v 1, (List.range C.n).map (element v)))
    | .done false _ => some none
    | _ => none

/-- Reading off a computed answer of the standard. -/
theorem std_witness {s : List Nat} {d : Alts} {pos n e : Nat} {cs : List (Option (Nat × Nat))}
    (h : stdOut s d pos n = some (some (e, cs))) :
    ∃ x, Match ⟨s, id⟩ d pos (some x) ∧ x.pos = e ∧ (List.range n).map x.caps = cs := by
  unfold stdOut at h
  rw [Option.map_eq_some_iff] at h
  obtain ⟨ys, h1, h2⟩ := h
  rw [Option.map_eq_some_iff] at h2
  obtain ⟨y, h2, h3⟩ := h2
  injection h3 with h3 h4
  refine ⟨y, ?_, h3, h4⟩
  rw [← h2]
  exact Spec.match_of_waysF h1

/-- Reading off a computed answer of the program. -/
theorem eng_witness {C : Ctx} {d : Alts} {pos : Nat} {e : Option Nat}
    {cs : List (Option (Nat × Nat))} (h : engOut C d pos = some (some (e, cs))) :
    ∃ f v, run C f (start d pos) = some (.done true v) ∧ v 1 = e ∧
      (List.range C.n).map (element v) = cs := by
  unfold engOut at h
  rw [Option.bind_eq_some_iff] at h
  obtain ⟨r, h1, h2⟩ := h
  split at h2
  · injection h2 with h2
    injection h2 with h2
    injection h2 with h2 h3
    exact ⟨_, _, h1, h2, h3⟩
  · cases h2
  · cases h2

/-- The element of group `i` in an answer. -/
def Exec.at (i : Nat) : Option Exec → Option (Nat × Option (Nat × Nat) × Option Nat)
  | some (.found p gs l) => some (p, gs i, l)
  | _ => none

end Verif.RegExp
