/-
What is expected of the string functions, stated without reference to the model.
-/
namespace Verif.Str.Spec

/-- `p` occurs in `s` at position `i`. -/
def OccursAt (s p : List Nat) (i : Nat) : Prop :=
  i + p.length ≤ s.length ∧ ∀ j, j < p.length → s[i + j]? = p[j]?

/-- `i` is the first position from `pos` on where `p` occurs in `s`. -/
def FirstFrom (s p : List Nat) (pos i : Nat) : Prop :=
  pos ≤ i ∧ OccursAt s p i ∧ ∀ j, pos ≤ j → OccursAt s p j → i ≤ j

/-- `i` is the last position up to `pos` where `p` occurs in `s`. -/
def LastUpTo (s p : List Nat) (pos i : Nat) : Prop :=
  i ≤ pos ∧ OccursAt s p i ∧ ∀ j, j ≤ pos → OccursAt s p j → j ≤ i

/-- White space of the language (ECMA-262 12.2, 12.3): TAB, LF, VT, FF, CR, SP, NBSP, ZWNBSP,
LS, PS, and the space separators (general category Zs). -/
def whites : List Nat :=
  [0x09, 0x0a, 0x0b, 0x0c, 0x0d, 0x20, 0xa0, 0x1680, 0x2000, 0x2001, 0x2002, 0x2003, 0x2004,
   0x2005, 0x2006, 0x2007, 0x2008, 0x2009, 0x200a, 0x2028, 0x2029, 0x202f, 0x205f, 0x3000,
   0xfeff]

/-- `r` is `s` without the longest run of white space at the start. -/
def TrimmedStart (s r : List Nat) : Prop :=
  ∃ w, s = w ++ r ∧ (∀ c ∈ w, c ∈ whites) ∧ ∀ c t, r = c :: t → c ∉ whites

/-- `r` is `s` without the longest run of white space at the end. -/
def TrimmedEnd (s r : List Nat) : Prop :=
  ∃ w, s = r ++ w ∧ (∀ c ∈ w, c ∈ whites) ∧ ∀ c t, r = t ++ [c] → c ∉ whites

/-- The decimal digits of a number, without leading zeros: an array index as a string. -/
structure IsDecimal (s : List Nat) (n : Nat) : Prop where
  digits : ∀ c ∈ s, 48 ≤ c ∧ c ≤ 57
  value : s.foldl (fun n c => n * 10 + (c - 48)) 0 = n
  nonempty : s ≠ []
  noLeadingZero : ∀ t, s = 48 :: t → t = []

/-- Keys which the code takes for an array index although they are not written like one:
white space around, leading zeros. -/
def Odd (s : List Nat) : Prop :=
  (∃ c t, s = c :: t ∧ (c ∈ whites ∨ c = 0x85)) ∨
  (∃ c t, s = t ++ [c] ∧ (c ∈ whites ∨ c = 0x85)) ∨
  ∃ c t, s = 48 :: c :: t

/-- `t` is the elements of `l` with `sep` between them. -/
def join (sep : List Nat) : List (List Nat) → List Nat
  | [] => []
  | [x] => x
  | x :: y :: ys => x ++ sep ++ join sep (y :: ys)

/-- `xs` is what `sep` (not empty) splits `s` into, the leftmost separator first. -/
inductive SplitOf (sep : List Nat) : List Nat → List (List Nat) → Prop where
  | last (s) : (∀ i, ¬ OccursAt s sep i) → SplitOf sep s [s]
  | cut (a b xs) : FirstFrom (a ++ sep ++ b) sep 0 a.length → SplitOf sep b xs →
      SplitOf sep (a ++ sep ++ b) (a :: xs)

/-- `r` is `s` with every occurrence of `p` (not empty), the leftmost first, replaced: the one
at position `i` of the whole string by `rep i`; `s` begins at position `off`. -/
inductive ReplacedBy (p : List Nat) (rep : Nat → List Nat) : Nat → List Nat → List Nat → Prop where
  | last (off s) : (∀ i, ¬ OccursAt s p i) → ReplacedBy p rep off s s
  | cut (off a b r) : FirstFrom (a ++ p ++ b) p 0 a.length →
      ReplacedBy p rep (off + a.length + p.length) b r →
      ReplacedBy p rep off (a ++ p ++ b) (a ++ rep (off + a.length) ++ r)

/-- `s` with `rep i` before its `i`-th character, and at the end. -/
def between (rep : Nat → List Nat) : Nat → List Nat → List Nat
  | off, [] => rep off
  | off, c :: s => rep off ++ c :: between rep (off + 1) s

end Verif.Str.Spec
