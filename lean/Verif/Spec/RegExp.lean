import Verif.Model.RegExp
/-
How the standard matches (ECMA-262, 22.2.2 "Pattern Semantics"), as the ordered list of ALL ways
a piece of a pattern can match from a state, best first.

The standard writes a matcher as a function of a state and a continuation; a matcher tries its
ways in order and hands each to the continuation until one succeeds.  So a matcher is determined
by the list of its ways, `m(x, c)` being the first success of `c` on that list.

Only the syntax tree is shared with the model (and in it the fields `start`, `stop` of terms, which
are computed by the parser of the program, are not looked at).
-/
namespace Verif.RegExp.Spec

/-- `Input` and `Canonicalize` of the standard. -/
structure Input where
  chars : List Nat
  canon : Nat → Nat

/-- "MatchState": end index and captures. -/
structure St where
  pos : Nat
  caps : Nat → Option (Nat × Nat)

mutual
/-- The numbers of the capturing groups inside an atom (the atom itself included). -/
def groupsA : Atom → List Nat
  | .char _ => []
  | .cond _ => []
  | .ref _ => []
  | .sub d => groupsD d
  | .group i d => i :: groupsD d
  | .look _ _ d => groupsD d
def groupsT : Term → List Nat
  | ⟨a, _, _, _, _, _⟩ => groupsA a
def groupsL : List Term → List Nat
  | [] => []
  | t :: ts => groupsT t ++ groupsL ts
def groupsD : List (List Term) → List Nat
  | [] => []
  | a :: d => groupsL a ++ groupsD d
end

/-- "CharacterSetMatcher": one character in the direction of matching. -/
def charWays (I : Input) (fwd : Bool) (p : Nat → Bool) (x : St) : List St :=
  match (if fwd then I.chars[x.pos]? else if x.pos = 0 then none else I.chars[x.pos - 1]?) with
  | none => []
  | some c => if p c then [{ x with pos := if fwd then x.pos + 1 else x.pos - 1 }] else []

/-- Assertions `^ $ \b \B`: a test on the characters before and at the end index. -/
def condWays (I : Input) (p : Option Nat → Option Nat → Bool) (x : St) : List St :=
  if p (if x.pos = 0 then none else I.chars[x.pos - 1]?) I.chars[x.pos]? then [x] else []

/-- `len` characters from `a` and from `b` are the same after `Canonicalize`. -/
def Same (I : Input) (a b len : Nat) : Prop :=
  ∀ i, i < len → (I.chars[a + i]?).map I.canon = (I.chars[b + i]?).map I.canon

/-- "BackreferenceMatcher": the ways are `ys`. -/
inductive RefWays (I : Input) (fwd : Bool) (ids : List Nat) (x : St) : List St → Prop
  | unset : (∀ i, i ∈ ids → x.caps i = none) → RefWays I fwd ids x [x]
  | forward (pre post : List Nat) (i s e : Nat) : ids = pre ++ i :: post →
      (∀ j, j ∈ pre → x.caps j = none) → x.caps i = some (s, e) → fwd = true →
      x.pos + (e - s) ≤ I.chars.length → Same I s x.pos (e - s) →
      RefWays I fwd ids x [{ x with pos := x.pos + (e - s) }]
  | backward (pre post : List Nat) (i s e : Nat) : ids = pre ++ i :: post →
      (∀ j, j ∈ pre → x.caps j = none) → x.caps i = some (s, e) → fwd = false →
      e - s ≤ x.pos → Same I s (x.pos - (e - s)) (e - s) →
      RefWays I fwd ids x [{ x with pos := x.pos - (e - s) }]
  | differs (pre post : List Nat) (i s e : Nat) : ids = pre ++ i :: post →
      (∀ j, j ∈ pre → x.caps j = none) → x.caps i = some (s, e) →
      (fwd = true → ¬ (x.pos + (e - s) ≤ I.chars.length ∧ Same I s x.pos (e - s))) →
      (fwd = false → ¬ (e - s ≤ x.pos ∧ Same I s (x.pos - (e - s)) (e - s))) →
      RefWays I fwd ids x []

/-- The captures of the groups in the list become undefined. -/
def St.forget (x : St) (is : List Nat) : St :=
  { x with caps := fun i => if i ∈ is then none else x.caps i }

/-- Group `i` was matched from `a` to the end index of `y`. -/
def St.capture (i a : Nat) (y : St) : St :=
  { y with caps := fun j =>
      if j = i then (if a ≤ y.pos then some (a, y.pos) else some (y.pos, a)) else y.caps j }

/-- Pieces of a pattern: an atom, an atom with (the rest of) a quantifier, a list of terms in the
order in which they are matched, alternatives. -/
inductive Node where
  | atom (a : Atom)
  | rep (a : Atom) (min : Nat) (max : Option Nat) (greedy : Bool)
  | seq (ts : List Term)
  | alts (d : Alts)

/-- One less, when there is a limit. -/
def lessOne (max : Option Nat) : Option Nat := max.map (· - 1)

/-- Terms of an alternative in the order in which they are matched. -/
def order (fwd : Bool) (ts : List Term) : List Term := if fwd then ts else ts.reverse

mutual
/-- `Ways I fwd n x ys`: piece `n` matched from `x` in the given direction has exactly the ways
`ys`, in this order. -/
inductive Ways (I : Input) : Bool → Node → St → List St → Prop
  | char (fwd p x) : Ways I fwd (.atom (.char p)) x (charWays I fwd p x)
  | cond (fwd p x) : Ways I fwd (.atom (.cond p)) x (condWays I p x)
  | ref (fwd ids x ys) : RefWays I fwd ids x ys → Ways I fwd (.atom (.ref ids)) x ys
  | sub (fwd d x ys) : Ways I fwd (.alts d) x ys → Ways I fwd (.atom (.sub d)) x ys
  | group (fwd i d x ys) : Ways I fwd (.alts d) x ys →
      Ways I fwd (.atom (.group i d)) x (ys.map (St.capture i x.pos))
  /-- a lookaround: only the first way counts, and of it only the captures -/
  | look (fwd ahead d x y ys) : Ways I ahead (.alts d) x (y :: ys) →
      Ways I fwd (.atom (.look ahead false d)) x [{ y with pos := x.pos }]
  | lookFail (fwd ahead d x) : Ways I ahead (.alts d) x [] →
      Ways I fwd (.atom (.look ahead false d)) x []
  | lookNot (fwd ahead d x) : Ways I ahead (.alts d) x [] →
      Ways I fwd (.atom (.look ahead true d)) x [x]
  | lookNotFail (fwd ahead d x y ys) : Ways I ahead (.alts d) x (y :: ys) →
      Ways I fwd (.atom (.look ahead true d)) x []
  /-- "RepeatMatcher": no more iterations allowed -/
  | repDone (fwd a min g x) : Ways I fwd (.rep a min (some 0) g) x [x]
  /-- an iteration that has to be made -/
  | repMust (fwd a min max g x ys zs) : max ≠ some 0 →
      Ways I fwd (.atom a) (x.forget (groupsA a)) ys →
      AllWays I fwd (.rep a min (lessOne max) g) ys zs →
      Ways I fwd (.rep a (min + 1) max g) x zs
  /-- an iteration that may be made must not be empty -/
  | repGreedy (fwd a max x ys zs) : max ≠ some 0 →
      Ways I fwd (.atom a) (x.forget (groupsA a)) ys →
      AllWays I fwd (.rep a 0 (lessOne max) true) (ys.filter (·.pos ≠ x.pos)) zs →
      Ways I fwd (.rep a 0 max true) x (zs ++ [x])
  | repLazy (fwd a max x ys zs) : max ≠ some 0 →
      Ways I fwd (.atom a) (x.forget (groupsA a)) ys →
      AllWays I fwd (.rep a 0 (lessOne max) false) (ys.filter (·.pos ≠ x.pos)) zs →
      Ways I fwd (.rep a 0 max false) x (x :: zs)
  | seqNil (fwd x) : Ways I fwd (.seq []) x [x]
  | seqCons (fwd t ts x ys zs) : Ways I fwd (.rep t.atom t.min t.max t.greedy) x ys →
      AllWays I fwd (.seq ts) ys zs → Ways I fwd (.seq (t :: ts)) x zs
  | altsOne (fwd a x ys) : Ways I fwd (.seq (order fwd a)) x ys → Ways I fwd (.alts [a]) x ys
  | altsCons (fwd a b d x ys zs) : Ways I fwd (.seq (order fwd a)) x ys →
      Ways I fwd (.alts (b :: d)) x zs → Ways I fwd (.alts (a :: b :: d)) x (ys ++ zs)
/-- The ways of `n` from each of the states, one after the other. -/
inductive AllWays (I : Input) : Bool → Node → List St → List St → Prop
  | nil (fwd n) : AllWays I fwd n [] []
  | cons (fwd n x xs ys zs) : Ways I fwd n x ys → AllWays I fwd n xs zs →
      AllWays I fwd n (x :: xs) (ys ++ zs)
end

mutual
/-- The least number of characters that a match of the piece takes, read off the pattern. -/
def lenA : Atom → Nat
  | .char _ => 1
  | .cond _ => 0
  | .ref _ => 0
  | .sub d => lenD d
  | .group _ d => lenD d
  | .look _ _ _ => 0
def lenT : Term → Nat
  | ⟨a, min, _, _, _, _⟩ => min * lenA a
def lenL : List Term → Nat
  | [] => 0
  | t :: ts => lenT t + lenL ts
def lenD : List (List Term) → Nat
  | [] => 0
  | [a] => lenL a
  | a :: b :: d => Nat.min (lenL a) (lenD (b :: d))
end

mutual
/-- In the whole pattern, an atom whose number of iterations is not fixed takes at least one
character (and no quantifier has its limits exchanged, a syntax error). -/
def solidA : Atom → Prop
  | .char _ => True
  | .cond _ => True
  | .ref _ => True
  | .sub d => solidD d
  | .group _ d => solidD d
  | .look _ _ d => solidD d
def solidT : Term → Prop
  | ⟨a, min, max, _, _, _⟩ =>
    (∀ m, max = some m → min ≤ m) ∧ (max = some min ∨ 0 < lenA a) ∧ solidA a
def solidL : List Term → Prop
  | [] => True
  | t :: ts => solidT t ∧ solidL ts
def solidD : List (List Term) → Prop
  | [] => True
  | a :: d => solidL a ∧ solidD d
end

/-- The state in which a match is tried at `pos`. -/
def init (pos : Nat) : St := ⟨pos, fun _ => none⟩

/-- What the standard's matcher answers for the pattern at `pos`: failure, or the final state. -/
def Match (I : Input) (d : Alts) (pos : Nat) (o : Option St) : Prop :=
  ∃ ys, Ways I true (.alts d) (init pos) ys ∧ o = ys.head?

/-- The entries `a`, `b` of a vector of positions store the capture. -/
def Stored (a b : Option Nat) : Option (Nat × Nat) → Prop
  | none => a = none ∨ b = none
  | some (s, e) => s ≤ e ∧ ((a = some s ∧ b = some e) ∨ (a = some e ∧ b = some s))

/-- The answer of `exec`. -/
inductive Answer where
  | null
  | found (index : Nat) (x : St)

/-- Where `exec` starts: at `lastIndex` only with the flag `g` or `y`. -/
def from' (g y : Bool) (last : Nat) : Nat := if g || y then last else 0

/-- "RegExpBuiltinExec" (22.2.7.2) for the value `last` of `lastIndex`: the answer, and the value
given to `lastIndex` (`none`: it is not written). -/
inductive Exec (I : Input) (d : Alts) (g y : Bool) (last : Nat) : Answer → Option Nat → Prop
  | past : I.chars.length < from' g y last →
      Exec I d g y last .null (if g || y then some 0 else none)
  | sticky : y = true → from' g y last ≤ I.chars.length → Match I d (from' g y last) none →
      Exec I d g y last .null (some 0)
  | nowhere : y = false → from' g y last ≤ I.chars.length →
      (∀ p, from' g y last ≤ p → p ≤ I.chars.length → Match I d p none) →
      Exec I d g y last .null (if g then some 0 else none)
  | found (p : Nat) (x : St) : from' g y last ≤ p → p ≤ I.chars.length →
      (y = true → p = from' g y last) →
      (∀ q, from' g y last ≤ q → q < p → Match I d q none) → Match I d p (some x) →
      Exec I d g y last (.found p x) (if g || y then some x.pos else none)

end Verif.RegExp.Spec
