import Verif.Model.RegExpExec
/-
Character classes and assertions of the standard, as sets of characters.
-/
namespace Verif.RegExp.Spec

/-- "CharacterSetMatcher" (22.2.2.7.1): some member of the set is the same character after
`Canonicalize`; `invert` for a class with `^`. -/
def InSet (canon : Nat → Nat) (A : Nat → Prop) (invert : Bool) (c : Nat) : Prop :=
  (∃ a, A a ∧ canon a = canon c) ↔ invert = false

/-- "CharacterClassEscape" (22.2.2.9) without `\p`, `\P`; `white` is the set of `\s`. -/
def Digit (a : Nat) : Prop := 48 ≤ a ∧ a ≤ 57
def Word (a : Nat) : Prop := Digit a ∨ (65 ≤ a ∧ a ≤ 90) ∨ (97 ≤ a ∧ a ≤ 122) ∨ a = 95

/-- "LineTerminator" -/
def LineTerminator (a : Nat) : Prop := a = 0x000A ∨ a = 0x000D ∨ a = 0x2028 ∨ a = 0x2029

/-- What a member of a class stands for, as a set (`white` is the set of `\s`). -/
def SetOf (white : Nat → Bool) : ClassAtom → Nat → Prop
  | .one .s, a => white a = true
  | .one .d, a => Digit a
  | .one .w, a => Word a
  | .one .S, a => ¬ white a = true
  | .one .D, a => ¬ Digit a
  | .one .W, a => ¬ Word a
  | .one (.normal c), a => a = c
  | .range min max, a => min ≤ a ∧ a ≤ max

/-- `Canonicalize` does not mix digits, word characters or white space with others. -/
def Stable (white : Nat → Bool) (canon : Nat → Nat) : Prop :=
  ∀ a c, canon a = canon c → (white a = white c) ∧ (Digit a ↔ Digit c) ∧
    (Word a ↔ Word c)

/-- Upper case of the letters a–z, as `canonicalize` with the flag `i` computes it for them. -/
def upper (c : Nat) : Nat := if 97 ≤ c ∧ c ≤ 122 then c - 32 else c

/-- Between the two halves of a surrogate pair. -/
def Mid (str : List Nat) (i : Nat) : Prop :=
  ∃ a b, 0 < i ∧ str[i - 1]? = some a ∧ str[i]? = some b ∧ 0xd800 ≤ a ∧ a ≤ 0xdbff ∧ 0xdc00 ≤ b ∧ b ≤ 0xdfff

end Verif.RegExp.Spec
