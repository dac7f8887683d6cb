import Verif.Lemmas.RegExpEx
import Verif.Lemmas.RegExpClass
/-
C70  the matcher answers what the standard's matcher answers
C71  the matcher always ends, inside its memory, with captures inside the string
C72  `exec`: leftmost match from `lastIndex`, `lastIndex`, the result array
C73  tests on one character
-/
namespace Verif.RegExp
open Spec (Match Stored InSet SetOf Stable upper)

/-! The examples that the standard gives for its own rules (22.2.2.3.1, 22.2.2.4, 22.2.2.3). -/

-- `/(z)((a+)?(b+)?(c))*/.exec("zaacbbbcac")` is ["zaacbbbcac", "z", "ac", "a", undefined, "c"]
example : stdOut [122, 97, 97, 99, 98, 98, 98, 99, 97, 99] pZ 0 6 =
    some (some (10, [none, some (0, 1), some (8, 10), some (8, 9), none, some (9, 10)])) := by
  decide +kernel
example : engOut (ctx [122, 97, 97, 99, 98, 98, 98, 99, 97, 99] 6) pZ 0 =
    some (some (some 10, [some (0, 10), some (0, 1), some (8, 10), some (8, 9), none, some (9, 10)])) := by
  decide +kernel
-- `/(a*)*/.exec("b")` is ["", undefined]
example : stdOut [98] pStarStar 0 2 = some (some (0, [none, none])) := by decide +kernel
-- `/(a*)*/.exec("aa")` is ["aa", "aa"]
example : stdOut [97, 97] pStarStar 0 2 = some (some (2, [none, some (0, 2)])) := by decide +kernel
-- `/((a)|(ab))((c)|(bc))/.exec("abc")` is ["abc", "a", "a", undefined, "bc", undefined, "bc"]
example : stdOut [97, 98, 99]
    [[once (.group 1 [[once (.group 2 [[once (ch 97) 3 3]]) 2 3],
        [once (.group 3 [[once (ch 97) 4 4, once (ch 98) 4 4]]) 3 4]]) 1 4,
      once (.group 4 [[once (.group 5 [[once (ch 99) 6 6]]) 5 6],
        [once (.group 6 [[once (ch 98) 7 7, once (ch 99) 7 7]]) 6 7]]) 4 7]] 0 7 =
    some (some (3, [none, some (0, 1), some (0, 1), none, some (1, 3), none, some (1, 3)])) := by
  decide +kernel
-- `/(a*)b\1+/.exec("baaaac")` is ["b", ""]
example : stdOut [98, 97, 97, 97, 97, 99]
    [[once (.group 1 [[many (ch 97) 2 2]]) 1 2, once (ch 98) 2 2, ⟨.ref [1], 1, none, true, 2, 2⟩]] 0 2 =
    some (some (1, [none, some (0, 0)])) := by decide +kernel
-- `/(?=(a+))a*b\1/.exec("baaabac")` is ["aba", "a"], found at 3
example : stdOut [98, 97, 97, 97, 98, 97, 99]
    [[once (.look true false [[once (.group 1 [[⟨ch 97, 1, none, true, 2, 2⟩]]) 1 2]]) 1 2,
      many (ch 97) 2 2, once (ch 98) 2 2, once (.ref [1]) 2 2]] 3 2 =
    some (some (6, [none, some (3, 4)])) := by decide +kernel
-- `/(.*?)a(?!(a+)b\2c)\2(.*)/.exec("baaabaac")` is ["baaabaac", "ba", undefined, "abaac"]
example : stdOut [98, 97, 97, 97, 98, 97, 97, 99]
    [[once (.group 1 [[⟨.char fun _ => true, 0, none, false, 2, 2⟩]]) 1 2, once (ch 97) 2 2,
      once (.look true true [[once (.group 2 [[⟨ch 97, 1, none, true, 3, 3⟩]]) 2 3,
        once (ch 98) 3 3, once (.ref [2]) 3 3, once (ch 99) 3 3]]) 2 3,
      once (.ref [2]) 3 3, once (.group 3 [[many (.char fun _ => true) 4 4]]) 3 4]] 0 4 =
    some (some (8, [none, some (0, 2), none, some (3, 8)])) := by decide +kernel

/-! ### C70 -/

/-- Without the flag `u`, for every pattern in which an atom whose number of iterations is not
fixed takes at least one character, every string and every position: the matcher answers exactly
what the standard's matcher answers, which is determined; a match has the same end and the same
captures. -/
theorem C70_partial (C : Ctx) (d : Alts) (pos : Nat) (hu : C.u = false) (hn : numD d 1 C.n)
    (hs : Spec.solidD d) (hp : pos ≤ C.str.length) :
    ∃ o, Match ⟨C.str, C.canon⟩ d pos o ∧ (∀ o', Match ⟨C.str, C.canon⟩ d pos o' → o' = o) ∧
      (∃ fuel r, run C fuel (start d pos) = some r) ∧
      ∀ fuel r, run C fuel (start d pos) = some r →
        ∃ v, r = .done o.isSome v ∧ ∀ x, o = some x →
          v 0 = some pos ∧ v 1 = some x.pos ∧
          ∀ i, 1 ≤ i → i < C.n → Stored (v (2 * i)) (v (2 * i + 1)) (x.caps i) := by
  rcases ran_match hu hn hs hp with ⟨h, f, v, hr⟩ | ⟨x, h, hle, f, v, hr, h0, h1, hc⟩
  · refine ⟨none, h, fun o' h' => Spec.match_unique h' h, ⟨f, _, hr⟩, ?_⟩
    intro f' r hr'
    exact ⟨v, run_unique hr' hr, by simp⟩
  · refine ⟨some x, h, fun o' h' => Spec.match_unique h' h, ⟨f, _, hr⟩, ?_⟩
    intro f' r hr'
    refine ⟨v, run_unique hr' hr, ?_⟩
    intro x' hx'
    injection hx' with hx'
    subst hx'
    refine ⟨h0, h1, ?_⟩
    intro i hi _
    rw [← hc i hi]
    unfold element
    split
    · rename_i s e h1 h2
      split
      · exact ⟨by omega, .inr ⟨h1, h2⟩⟩
      · exact ⟨by omega, .inl ⟨h1, h2⟩⟩
    · rename_i h
      cases h1 : v (2 * i) with
      | none => exact .inl rfl
      | some s =>
        cases h2 : v (2 * i + 1) with
        | none => exact .inr rfl
        | some e => exact absurd h2 (h s e h1)

-- the pattern of the standard is of that kind and has five groups
example : numD pZ 1 6 ∧ Spec.solidD pZ := by
  constructor
  · simp [pZ, numD, numL, numT, numA, once, many, ch]
  · simp [pZ, Spec.solidD, Spec.solidL, Spec.solidT, Spec.solidA, Spec.lenA, Spec.lenD, Spec.lenL,
      Spec.lenT, once, many, ch]

-- and so is one with a lookbehind and two alternatives
example : numD pBack 1 3 ∧ Spec.solidD pBack ∧
    engOut (ctx [97, 98] 3) pBack 1 = some (some (some 2, [some (1, 2), some (0, 1), none])) := by
  refine ⟨?_, ?_, by decide +kernel⟩
  · simp [pBack, numD, numL, numT, numA, once, ch]
  · simp [pBack, Spec.solidD, Spec.solidL, Spec.solidT, Spec.solidA, once, ch]

/-- An iteration that took nothing is accepted, where the standard undoes it:
`/(a*)*/.exec("b")` stores the empty string for the group, by the standard it is undefined. -/
theorem C70_violated : ∃ (C : Ctx) (d : Alts) (x : Spec.St) (fuel : Nat) (v : Vec),
    C.u = false ∧ numD d 1 C.n ∧ Match ⟨C.str, C.canon⟩ d 0 (some x) ∧
    run C fuel (start d 0) = some (.done true v) ∧
    ¬ Stored (v 2) (v 3) (x.caps 1) := by
  obtain ⟨x, h1, _, h2⟩ := std_witness (s := [98]) (d := pStarStar) (pos := 0) (n := 2) (e := 0)
    (cs := [none, none]) (by decide +kernel)
  obtain ⟨f, v, h3, _, h4⟩ := eng_witness (C := ctx [98] 2) (d := pStarStar) (pos := 0)
    (e := some 0) (cs := [some (0, 0), some (0, 0)]) (by decide +kernel)
  refine ⟨ctx [98] 2, pStarStar, x, f, v, rfl, ?_, h1, h3, ?_⟩
  · simp [pStarStar, numD, numL, numT, numA, many, ch, ctx]
  · have h2 : x.caps 1 = none := by
      simp only [List.range, List.range.loop, List.map_cons, List.map_nil, List.cons.injEq] at h2
      exact h2.2.1
    have h4 : element v 1 = some (0, 0) := by
      simp only [ctx, List.range, List.range.loop, List.map_cons, List.map_nil,
        List.cons.injEq] at h4
      exact h4.2.1
    rw [h2]
    intro hs
    unfold element at h4
    rcases hs with hs | hs
    · rw [show 2 * 1 = 2 from rfl, hs] at h4; simp at h4
    · rw [show 2 * 1 + 1 = 3 from rfl, hs] at h4; simp at h4

/-- The iterations that have to be made are not exempt from the test for empty iterations:
`/(?:|(a)){1,2}b/.exec("ab")` loses the group, which is "a" by the standard. -/
theorem C70_violated_min : ∃ (C : Ctx) (d : Alts) (x : Spec.St) (fuel : Nat) (v : Vec),
    C.u = false ∧ numD d 1 C.n ∧ Match ⟨C.str, C.canon⟩ d 0 (some x) ∧
    run C fuel (start d 0) = some (.done true v) ∧
    x.caps 1 = some (0, 1) ∧ ¬ Stored (v 2) (v 3) (x.caps 1) := by
  obtain ⟨x, h1, _, h2⟩ := std_witness (s := [97, 98]) (d := pOneTwo) (pos := 0) (n := 2) (e := 2)
    (cs := [none, some (0, 1)]) (by decide +kernel)
  obtain ⟨f, v, h3, _, h4⟩ := eng_witness (C := ctx [97, 98] 2) (d := pOneTwo) (pos := 0)
    (e := some 2) (cs := [some (0, 2), none]) (by decide +kernel)
  have h2 : x.caps 1 = some (0, 1) := by
    simp only [List.range, List.range.loop, List.map_cons, List.map_nil, List.cons.injEq] at h2
    exact h2.2.1
  have h4 : element v 1 = none := by
    simp only [ctx, List.range, List.range.loop, List.map_cons, List.map_nil,
      List.cons.injEq] at h4
    exact h4.2.1
  refine ⟨ctx [97, 98] 2, pOneTwo, x, f, v, rfl, ?_, h1, h3, h2, ?_⟩
  · simp [pOneTwo, numD, numL, numT, numA, once, ch, ctx]
  · rw [h2]
    rintro ⟨_, ⟨a, b⟩ | ⟨a, b⟩⟩ <;>
    · unfold element at h4
      rw [show 2 * 1 + 1 = 3 from rfl, show 2 * 1 = 2 from rfl, a, b] at h4
      simp at h4

/-! ### C71 -/

/-- For every pattern that the parser numbers, with and without the flag `u`, every string and
every position in it: the matcher ends, and never reads or writes outside the string, the vector of
positions or the job stack; if it answers "found", the match starts at the position and every
stored position is inside the string. -/
theorem C71_ends (C : Ctx) (d : Alts) (pos : Nat) (hn : numD d 1 C.n) (hp : pos ≤ C.str.length) :
    (∃ fuel r, run C fuel (start d pos) = some r) ∧
    ∀ fuel r, run C fuel (start d pos) = some r →
      (∃ v, r = .done false v) ∨
      ∃ v e, r = .done true v ∧ v 0 = some pos ∧ v 1 = some e ∧ pos ≤ e ∧
        ∀ j p, v j = some p → p ≤ C.str.length := by
  cases ran hn hp with
  | no f v hr =>
    refine ⟨⟨f, _, hr⟩, ?_⟩
    intro f' r hr'
    exact .inl ⟨v, run_unique hr' hr⟩
  | yes f e v hr h0 h1 hle hv =>
    refine ⟨⟨f, _, hr⟩, ?_⟩
    intro f' r hr'
    exact .inr ⟨v, e, run_unique hr' hr, h0, h1, hle, hv⟩

-- also where the answer is not the standard's
example : numD pStarStar 1 2 ∧ ¬ Spec.solidD pStarStar ∧
    engOut (ctx [97, 97] 2) pStarStar 0 = some (some (some 2, [some (0, 2), some (2, 2)])) := by
  refine ⟨?_, ?_, by decide +kernel⟩
  · simp [pStarStar, numD, numL, numT, numA, many, ch]
  · simp [pStarStar, Spec.solidD, Spec.solidL, Spec.solidT, Spec.solidA, Spec.lenA, Spec.lenD,
      Spec.lenL, Spec.lenT, many, ch]

/-- `exec` ends for every pattern, string, flags and value of `lastIndex`, inside its memory; the
match is at or after the start, at the start with the flag `y`; every stored group is inside the
string, and `lastIndex` is written exactly with the flags `g`, `y`: the end of the match or 0. -/
theorem C71_exec (C : Ctx) (d : Alts) (g y : Bool) (last : Nat) (hn : numD d 1 C.n) :
    (∃ fuel rounds r, exec C d g y last fuel rounds = some r) ∧
    ∀ fuel rounds r, exec C d g y last fuel rounds = some r →
      r = .null (if g || y then some 0 else none) ∨
      ∃ p gs e, r = .found p gs (if g || y then some e else none) ∧
        (if g || y then last else 0) ≤ p ∧ (y = true → p = last) ∧ gs 0 = some (p, e) ∧ p ≤ e ∧
        ∀ j s t, gs j = some (s, t) → j < C.n ∧ s ≤ t ∧ t ≤ C.str.length := by
  obtain ⟨f, k, o, h1, h2⟩ := exec_fine (C := C) hn g y _ (if g || y then last else 0)
    (Nat.le_refl _)
  refine ⟨⟨f, k, o, h1⟩, ?_⟩
  intro f' k' r hr
  have : r = o := execLoop_unique hr h1
  subst this
  cases r with
  | ub => exact absurd h2 id
  | null l => left; rw [show l = _ from h2]
  | found p gs l =>
    obtain ⟨q1, q2, q3, e, q4, q5, q6, q7, q8⟩ := h2
    right
    refine ⟨p, gs, e, by rw [q7], q1, ?_, q4, q5, q8⟩
    intro hy
    have := q3 hy
    rw [this, hy]
    simp

/-! ### C72 -/

/-- Without the flag `u`, for the patterns of `C70_partial`: `exec` answers as the standard's
`RegExpBuiltinExec`: null or the leftmost match at or after the start, the value written to
`lastIndex`, the limits of every group that took part. -/
theorem C72_partial (C : Ctx) (d : Alts) (g y : Bool) (last : Nat) (hu : C.u = false)
    (hn : numD d 1 C.n) (hs : Spec.solidD d) :
    (∃ fuel rounds r, exec C d g y last fuel rounds = some r) ∧
    ∀ fuel rounds r, exec C d g y last fuel rounds = some r →
      (∃ l, r = .null l ∧ Spec.Exec ⟨C.str, C.canon⟩ d g y last .null l) ∨
      (∃ p x gs l, r = .found p gs l ∧ Spec.Exec ⟨C.str, C.canon⟩ d g y last (.found p x) l ∧
        gs 0 = some (p, x.pos) ∧ ∀ i, 1 ≤ i → i < C.n → gs i = x.caps i) := by
  obtain ⟨f, k, o, h1, h2⟩ := exec_agrees (C := C) hu hn hs g y _ (Spec.from' g y last)
    (Nat.le_refl _)
  refine ⟨⟨f, k, o, h1⟩, ?_⟩
  intro f' k' r hr
  have : r = o := execLoop_unique hr h1
  subst this
  rcases h2 with ⟨rfl, h⟩ | ⟨p, x, gs, rfl, h1, h2, h3, h4, h5, h6, h7⟩
  · left
    refine ⟨_, rfl, ?_⟩
    rcases h with h | ⟨hy, hl, h⟩ | ⟨hy, h⟩
    · exact .past h
    · have := Spec.Exec.sticky (I := ⟨C.str, C.canon⟩) (g := g) hy hl h
      rw [hy]
      simpa [hy] using this
    · by_cases hl : Spec.from' g y last ≤ C.str.length
      · have := Spec.Exec.nowhere (I := ⟨C.str, C.canon⟩) (g := g) hy hl h
        rw [hy]
        simpa [hy] using this
      · exact .past (Nat.lt_of_not_le hl)
  · right
    exact ⟨p, x, gs, _, rfl, .found p x h1 h2 h3 h4 h5, h6, h7⟩

-- `/(?<=(a))b|(c)/g` on "xabc" with `lastIndex` 1: found at 2, `lastIndex` becomes 3
example : Exec.at 1 (exec (ctx [120, 97, 98, 99] 3) pBack true false 1 200 6) =
    some (2, some (1, 2), some 3) := by decide +kernel

/-- With the flag `u` the search goes by characters: from a start that is not within a surrogate pair
the position of the match is not within one either, at all such positions before it the matcher said
no, and if the answer is null (without `y`) it said no at all of them. -/
theorem C72_whole (C : Ctx) (d : Alts) (g y : Bool) (last : Nat) (hu : C.u = true)
    (hs : ¬ Spec.Mid C.str (if g || y then last else 0)) (fuel rounds : Nat) (r : Exec)
    (hr : exec C d g y last fuel rounds = some r) :
    (∀ p gs l, r = .found p gs l → ¬ Spec.Mid C.str p ∧
      ∀ q, (if g || y then last else 0) ≤ q → q < p → ¬ Spec.Mid C.str q →
        ∃ v, run C fuel (start d q) = some (.done false v)) ∧
    (∀ l, r = .null l → y = false → ∀ q, (if g || y then last else 0) ≤ q → q ≤ C.str.length →
      ¬ Spec.Mid C.str q → ∃ v, run C fuel (start d q) = some (.done false v)) := by
  obtain ⟨h1, h2⟩ := execLoop_whole hu rounds _ r hs hr
  exact ⟨fun p gs l e => (h1 p gs l e).2, h2⟩

-- `/\udc00/u` on "\ud800\udc00" finds nothing, on "\udc00" it is found
example : exec ⟨[0xd800, 0xdc00], id, true, 1⟩ [[once (ch 0xdc00) 1 1]] false false 0 50 6 = some (.null none) := by
  rfl
example : Exec.at 0 (exec ⟨[0xdc00], id, true, 1⟩ [[once (ch 0xdc00) 1 1]] false false 0 50 6) =
    some (0, some (0, 1), none) := by decide +kernel

/-- The result array has no element at all for a group that did not take part; by the standard
every group has one (with the value undefined), as for `/(?<=(a))b|(c)/.exec("ab")` and group 2. -/
theorem C72_violated : ∃ (C : Ctx) (d : Alts) (p : Nat) (gs : Nat → Option (Nat × Nat))
    (l : Option Nat) (x : Spec.St) (i fuel rounds : Nat),
    C.u = false ∧ numD d 1 C.n ∧ exec C d false false 0 fuel rounds = some (.found p gs l) ∧
    Match ⟨C.str, C.canon⟩ d p (some x) ∧ 1 ≤ i ∧ i < C.n ∧ gs i = none := by
  have he : Exec.at 2 (exec (ctx [97, 98] 3) pBack false false 0 200 6) = some (1, none, none) := by
    decide +kernel
  obtain ⟨x, hx, _, _⟩ := std_witness (s := [97, 98]) (d := pBack) (pos := 1) (n := 3) (e := 2)
    (cs := [none, some (0, 1), none]) (by decide +kernel)
  unfold Exec.at at he
  split at he
  · rename_i p gs l hr
    injection he with he
    injection he with h1 h2
    injection h2 with h2 h3
    subst h1
    refine ⟨ctx [97, 98] 3, pBack, _, gs, l, x, 2, 200, 6, rfl, ?_, hr, hx, by omega, ?_, h2⟩
    · simp [pBack, numD, numL, numT, numA, once, ch, ctx]
    · simp [ctx]
  · cases he

/-! ### C73 -/

/-- Classes: without the flag `i`, or with it when the class has no range and case folding keeps
digits, word characters and white space apart: a class accepts the characters that the standard's
"CharacterSetMatcher" accepts for the union of its members. -/
theorem C73_class_partial (white : Nat → Bool) (canon : Nat → Nat) (hst : Stable white canon)
    (invert : Bool) (as : List ClassAtom) (hr : canon = id ∨ ∀ a, a ∈ as → ∀ m n, a ≠ .range m n)
    (c : Nat) :
    matchClass white canon invert as c = true ↔
      InSet canon (fun b => ∃ a, a ∈ as ∧ SetOf white a b) invert c := by
  induction as with
  | nil => cases invert <;> simp [matchClass, InSet]
  | cons a as ih =>
    have ih := ih (hr.imp id fun h a ha => h a (by simp [ha]))
    have hm := member_iff hst (a := a) (hr.imp id fun h => h a (by simp)) c
    simp only [matchClass]
    by_cases h : matchClassAtom white canon a c = true
    · rw [if_pos h]
      obtain ⟨b, h1, h2⟩ := hm.1 h
      have : ∃ b, (∃ a', a' ∈ a :: as ∧ SetOf white a' b) ∧ canon b = canon c :=
        ⟨b, ⟨a, by simp, h1⟩, h2⟩
      unfold InSet
      rw [iff_true_intro this]
      cases invert <;> simp
    · rw [if_neg h, ih]
      unfold InSet
      have : (∃ b, (∃ a', a' ∈ a :: as ∧ SetOf white a' b) ∧ canon b = canon c) ↔
          ∃ b, (∃ a', a' ∈ as ∧ SetOf white a' b) ∧ canon b = canon c := by
        constructor
        · rintro ⟨b, ⟨a', ha, h1⟩, h2⟩
          rcases List.mem_cons.1 ha with e | ha
          · subst e; exact absurd (hm.2 ⟨b, h1, h2⟩) h
          · exact ⟨b, ⟨a', ha, h1⟩, h2⟩
        · rintro ⟨b, ⟨a', ha, h1⟩, h2⟩
          exact ⟨b, ⟨a', by simp [ha], h1⟩, h2⟩
      rw [this]

-- `[^a-cX\d]` without `i`
example : matchClass (fun _ => false) id true [.range 97 99, .one (.normal 88), .one .d] 98 = false ∧
    matchClass (fun _ => false) id true [.range 97 99, .one (.normal 88), .one .d] 120 = true := by
  decide

/-- With the flag `i` the limits of a range are themselves changed to upper case:
`/[_-a]/i.test("_")` is false. -/
theorem C73_violated (white : Nat → Bool) (canon : Nat → Nat) (h1 : canon 97 = upper 97)
    (h2 : canon 95 = upper 95) :
    matchClass white canon false [.range 95 97] 95 = false ∧
    InSet canon (fun b => ∃ a, a ∈ [ClassAtom.range 95 97] ∧ SetOf white a b) false 95 := by
  constructor
  · simp [matchClass, matchClassAtom, h1, h2, upper]
  · refine ⟨fun _ => rfl, fun _ => ⟨95, ⟨_, List.mem_singleton.2 rfl, ?_⟩, rfl⟩⟩
    simp [SetOf]

/-- `.` accepts every character, without the flag `s` every one but the line terminators. -/
theorem C73_all (s : Bool) (c : Nat) : matchAll s c = true ↔ (s = true ∨ ¬ Spec.LineTerminator c) := by
  simp [matchAll, isLineEnd, Spec.LineTerminator]

/-- `^` holds at the start of the string, with the flag `m` also after a line terminator; `$` at
the end, with `m` also before a line terminator. -/
theorem C73_lines (m : Bool) (before here : Option Nat) :
    (lineStart m before here = true ↔
      before = none ∨ (m = true ∧ ∃ c, before = some c ∧ Spec.LineTerminator c)) ∧
    (lineEnd m before here = true ↔
      here = none ∨ (m = true ∧ ∃ c, here = some c ∧ Spec.LineTerminator c)) := by
  constructor
  · cases before <;> simp [lineStart, isLineEnd, Spec.LineTerminator]
  · cases here <;> simp [lineEnd, isLineEnd, Spec.LineTerminator]

/-- `\b` holds where exactly one of the two characters is a word character, `\B` elsewhere. -/
theorem C73_boundary (before here : Option Nat) :
    (boundary false before here = true ↔
      ¬ ((∃ c, before = some c ∧ Spec.Word c) ↔ (∃ c, here = some c ∧ Spec.Word c))) ∧
    (boundary true before here = true ↔
      ((∃ c, before = some c ∧ Spec.Word c) ↔ (∃ c, here = some c ∧ Spec.Word c))) := by
  have hw : ∀ o, wordAt o = true ↔ ∃ c, o = some c ∧ Spec.Word c := by
    intro o
    cases o with
    | none => simp [wordAt]
    | some c => simp [wordAt, word_iff]
  rw [← hw before, ← hw here]
  unfold boundary
  cases wordAt before <;> cases wordAt here <;> simp

example : boundary false (some 97) (some 32) = true ∧ boundary false (some 97) (some 98) = false := by
  decide

end Verif.RegExp
