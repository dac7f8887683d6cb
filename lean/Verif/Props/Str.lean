import Verif.Lemmas.Intern
import Verif.Lemmas.StrSplit
import Verif.Lemmas.Subst
/-
Properties C26-C29, C52, C59, C60: strings.
-/
namespace Verif.Str
open Spec

/-! ### C26 -/

/-- C26 is violated: different strings name the same property, `o["01"]` is `o["1"]`, and so is
`o[" 1"]`. -/
theorem C26_violated : ∃ k1 k2 : List Nat, k1 ≠ k2 ∧ resolve k1 = resolve k2 :=
  ⟨[48, 49], [49], by decide, by decide⟩

/-- C26, partial: keys without white space at their ends and without leading zeros are different
keys if they are different strings; they are an array index exactly if they are
written like one. -/
theorem C26_partial (k1 k2 : List Nat) (h1 : ¬ Odd k1) (h2 : ¬ Odd k2) :
    (resolve k1 = resolve k2 → k1 = k2) ∧
    ∀ i, resolve k1 = .index i ↔ IsDecimal k1 i ∧ i ≤ 2 ^ 32 - 2 := by
  have hidx : ∀ k, ¬ Odd k → ∀ i, resolve k = .index i → IsDecimal k i ∧ i ≤ 2 ^ 32 - 2 := by
    intro k hk i h
    unfold resolve at h
    split at h
    · rename_i n hn
      cases h
      exact toIndex_plain hk hn
    · cases h
  refine ⟨fun h => ?_, fun i => ⟨hidx k1 h1 i, fun h => ?_⟩⟩
  · cases hr : resolve k2 with
    | index i =>
      rw [hr] at h
      exact decimal_unique (hidx k1 h1 i h).1 (hidx k2 h2 i hr).1
    | name s =>
      rw [hr] at h
      have hname : ∀ k, resolve k = .name s → k = s := by
        intro k hk
        unfold resolve at hk
        split at hk
        · cases hk
        · cases hk; rfl
      rw [hname k1 h, hname k2 hr]
  · simp [resolve, toIndex_decimal h.1 h.2]

/-- C26, partial: the index strings which the engine makes for numbers name the same property
as the string of the digits. -/
theorem C26_index_strings (i : Nat) (h : i ≤ 2 ^ 32 - 2) : resolve (decimal i) = .index i := by
  simp [resolve, toIndex_decimal (decimal_isDecimal i) h]

/-- "12" and "length" are no odd keys; "12" is an index. -/
example : ¬ Odd [49, 50] ∧ ¬ Odd [108, 101, 110] ∧ resolve [49, 50] = .index 12 ∧
    resolve [108, 101, 110] = .name [108, 101, 110] := by
  refine ⟨?_, ?_, by decide, by decide⟩ <;>
  · rintro (⟨c, t, h, hw⟩ | ⟨c, t, h, hw⟩ | ⟨c, t, h⟩)
    · obtain ⟨rfl, _⟩ := List.cons.inj h; revert hw; decide
    · have := congrArg List.getLast? h
      simp at this
      subst this; revert hw; decide
    · simp at h

/-- 4294967294 is the greatest index, 4294967295 is no index. -/
example : resolve (decimal 4294967294) = .index 4294967294 := C26_index_strings _ (by decide)
example : resolve [52, 50, 57, 52, 57, 54, 55, 50, 57, 53] =
    .name [52, 50, 57, 52, 57, 54, 55, 50, 57, 53] := by decide

/-! ### C27 -/

/-- C27.  The comparison is the lexicographic order of the code units. -/
theorem C27_compare (a b : List Nat) :
    (compare a b = .less ↔ List.Lex (· < ·) a b) ∧
    (compare a b = .equal ↔ a = b) ∧
    (compare a b = .greater ↔ List.Lex (· < ·) b a) :=
  ⟨compare_less a b, compare_equal a b, by rw [compare_swap, compare_less]⟩

/-- C27.  It is a total order. -/
theorem C27_order (a b c : List Nat) :
    (compare a b = .less → compare b c = .less → compare a c = .less) ∧
    (compare a b = .less ↔ compare b a = .greater) ∧
    (compare a b = .equal ∨ compare a b = .less ∨ compare a b = .greater) := by
  refine ⟨fun h1 h2 => ?_, (compare_swap b a).symm, by cases compare a b <;> simp⟩
  rw [compare_less] at *
  exact List.lt_trans (α := Nat) h1 h2

/-- C27.  After any history of strings being made, being made property keys and being freed,
nothing dead is used, and two values which are strings are equal exactly if they have
the same characters, be they property keys or not, index strings or not. -/
theorem C27_equal (os : List SOp) : ∃ s, runS .init os = some s ∧
    ∀ (u v : SVal) (a b : List Nat), u.chars s = some a → v.chars s = some b →
      (equalVal s u v = some true ↔ a = b) ∧ (equalVal s u v = some false ↔ a ≠ b) ∧
      (equalVal s u v = some true ↔ compare a b = .equal) := by
  obtain ⟨s, h1, h2⟩ := runS_inv os _ sinv_init
  refine ⟨s, h1, fun u v a b ha hb => ?_⟩
  rw [equalVal_spec h2 ha hb, compare_equal]
  by_cases h : a = b <;> simp [h]

/-- C27.  After any history, the conversion to a property key gives a string with the same
characters, and equal strings give the same one. -/
theorem C27_intern (os : List SOp) (s : Strings) (h : runS .init os = some s) (i j : Nat)
    (a : List Nat) (hi : s.chars i = some a) (hj : s.chars j = some a) :
    ∃ s1 s2 e, toPropertyKey s i = some (s1, e) ∧ s1.chars e = some a ∧
      toPropertyKey s1 j = some (s2, e) := by
  obtain ⟨s', h1, h2⟩ := runS_inv os _ sinv_init
  rw [h] at h1
  obtain rfl := Option.some.inj h1
  obtain ⟨s1, e, h3, h4, h5, h6, h7⟩ := toPropertyKey_spec h2 hi
  have hj' : s1.chars j = some a := by rw [h5]; exact hj
  obtain ⟨s2, e', h8, h9, h10, h11, h12⟩ := toPropertyKey_spec h4 hj'
  have he : e ∈ s2.table ∧ e' ∈ s2.table := by
    refine ⟨?_, (h9.key e' (by rw [h11]; simp)).1 h12⟩
    refine (h9.key e (by rw [h10, h6]; simp)).1 ?_
    -- the flag of `e` is kept
    unfold toPropertyKey at h8
    split at h8
    · obtain ⟨rfl, rfl⟩ := Prod.mk.inj (Option.some.inj h8); exact h7
    · split at h8
      · cases h8
      · obtain ⟨rfl, rfl⟩ := Prod.mk.inj (Option.some.inj h8); exact h7
      · obtain ⟨rfl, rfl⟩ := Prod.mk.inj (Option.some.inj h8)
        simp only
        split
        · rfl
        · exact h7
  have : e = e' := h9.diff e e' he.1 he.2 (by rw [h11, h10, h6])
  subst this
  exact ⟨s1, s2, e, h3, h6, h8⟩

/-- Two strings "ab", the first is a property key, the second becomes the same one. -/
example : ∃ s, runS .init [.new 0 [97, 98], .new 1 [97, 98], .new 2 [49], .key 0] = some s ∧
    s.chars 0 = some [97, 98] ∧ (toPropertyKey s 1).map (·.2) = some 0 ∧
    equalVal s (.str 0) (.str 1) = some true ∧ equalVal s (.str 2) (.str 0) = some false := by
  refine ⟨_, rfl, ?_⟩
  decide

/-! ### C28 -/

/-- C28.  `indexOf` reads only the strings and gives the first position from `pos` on at which
the pattern occurs, or nothing if there is none. -/
theorem C28_indexOf (s p : List Nat) (pos : Nat) :
    ∃ r, indexOf s p pos = some r ∧ (∀ i, r = some i ↔ FirstFrom s p pos i) ∧
      (r = none ↔ ∀ i, pos ≤ i → ¬ OccursAt s p i) := by
  obtain ⟨r, h1, h2, h3⟩ := indexOf_spec s p pos
  refine ⟨r, h1, fun i => ⟨h2 i, fun h => ?_⟩, h3, fun h => ?_⟩
  · cases r with
    | none => exact absurd h.2.1 (h3 rfl i h.1)
    | some j =>
      have hj := h2 j rfl
      have a := hj.2.2 i h.1 h.2.1
      have b := h.2.2 j hj.1 hj.2.1
      rw [show j = i by omega]
  · cases r with
    | none => rfl
    | some j => exact absurd (h2 j rfl).2.1 (h j (h2 j rfl).1)

/-- C28.  `lastIndexOf` gives the last position up to `pos`. -/
theorem C28_lastIndexOf (s p : List Nat) (pos : Nat) :
    ∃ r, lastIndexOf s p pos = some r ∧ (∀ i, r = some i ↔ LastUpTo s p pos i) ∧
      (r = none ↔ ∀ i, i ≤ pos → ¬ OccursAt s p i) := by
  obtain ⟨r, h1, h2, h3⟩ := lastIndexOf_spec s p pos
  refine ⟨r, h1, fun i => ⟨h2 i, fun h => ?_⟩, h3, fun h => ?_⟩
  · cases r with
    | none => exact absurd h.2.1 (h3 rfl i h.1)
    | some j =>
      have hj := h2 j rfl
      have a := hj.2.2 i h.1 h.2.1
      have b := h.2.2 j hj.1 hj.2.1
      rw [show j = i by omega]
  · cases r with
    | none => rfl
    | some j => exact absurd (h2 j rfl).2.1 (h j (h2 j rfl).1)

/-- "abcab": "ab" from 1 on is at 3, up to 2 at 0; the empty pattern; a long pattern. -/
example : indexOf [97, 98, 99, 97, 98] [97, 98] 1 = some (some 3) ∧
    lastIndexOf [97, 98, 99, 97, 98] [97, 98] 2 = some (some 0) ∧
    indexOf [97] [] 1 = some (some 1) ∧ indexOf [97] [97, 97] 0 = some none ∧
    lastIndexOf [97] [97, 97] 0 = some none := by decide

/-! ### C29 -/

/-- C29.  `padStart` and `padEnd`: the string itself if it is long enough or the filler is
empty; otherwise a string of the requested length which is the string and the repeated
filler.  Nothing is written outside of the new string. -/
theorem C29_pad (atEnd : Bool) (s : List Nat) (n : Nat) (p : List Nat) :
    ∃ r, pad atEnd s n p = some r ∧
      ((n ≤ s.length ∨ p = []) → r = s) ∧
      (s.length ≤ n → p ≠ [] → r.length = n ∧
        ∃ q, r = (if atEnd then s ++ q else q ++ s) ∧
          ∀ i, i < q.length → q[i]? = p[i % p.length]?) := by
  obtain ⟨r, h1, h2, h3⟩ := pad_spec atEnd s n p
  refine ⟨r, h1, h2, fun h4 h5 => ?_⟩
  obtain ⟨q, h6, h7, h8⟩ := h3 h4 h5
  refine ⟨?_, q, h6, h8⟩
  rw [h6]
  split <;> simp <;> omega

/-- C29 is violated for `trim`: U+0085 is removed, although it is no white space of the
language. -/
theorem C29_violated : ∃ s r, trim true true s = some r ∧ ∀ w, TrimmedStart s w → w ≠ r := by
  refine ⟨[0x85], [], rfl, ?_⟩
  rintro w ⟨u, h1, h2, h3⟩ rfl
  simp only [List.append_nil] at h1
  have := h2 0x85 (by rw [← h1]; simp)
  revert this; decide

/-- C29, partial: on strings without U+0085, `trimStart`, `trimEnd` and `trim` remove exactly the
longest runs of white space. -/
theorem C29_trim_partial (s : List Nat) (h85 : 0x85 ∉ s) :
    (∃ r, trim true false s = some r ∧ TrimmedStart s r) ∧
    (∃ r, trim false true s = some r ∧ TrimmedEnd s r) ∧
    (∃ r r', trim true true s = some r' ∧ TrimmedStart s r ∧ TrimmedEnd r r') := by
  have hw : ∀ c ∈ s, isWhite c = true → c ∈ whites := fun c hc h => by
    rcases (isWhite_iff c).1 h with h | rfl
    · exact h
    · exact absurd hc h85
  have hnw : ∀ c, isWhite c = false → c ∉ whites := fun c h hc => by
    rw [(isWhite_iff c).2 (Or.inl hc)] at h; cases h
  refine ⟨?_, ?_, ?_⟩
  · obtain ⟨a, r, b, h1, h2, h3, h4, h5, h6, h7, h8, h9⟩ := trim_spec true false s
    obtain rfl := h6 rfl
    rw [List.append_nil] at h2
    exact ⟨r, h1, a, h2, fun c hc => hw c (by rw [h2]; simp [hc]) (h3 c hc),
      fun c t hr => hnw c (h7 rfl c t hr)⟩
  · obtain ⟨a, r, b, h1, h2, h3, h4, h5, h6, h7, h8, h9⟩ := trim_spec false true s
    obtain rfl := h5 rfl
    rw [List.nil_append] at h2
    exact ⟨r, h1, b, h2, fun c hc => hw c (by rw [h2]; simp [hc]) (h4 c hc),
      fun c t hr => hnw c (h8 rfl c t hr)⟩
  · obtain ⟨a, r, b, h1, h2, h3, h4, h5, h6, h7, h8, h9⟩ := trim_spec true true s
    refine ⟨r ++ b, r, h1, ⟨a, by rw [h2]; simp, fun c hc => hw c (by rw [h2]; simp [hc]) (h3 c hc),
      fun c t hr => ?_⟩, b, rfl, fun c hc => hw c (by rw [h2]; simp [hc]) (h4 c hc),
      fun c t hr => hnw c (h8 rfl c t hr)⟩
    cases r with
    | nil => rw [h9 rfl rfl] at hr; simp at hr
    | cons x r =>
      obtain ⟨rfl, _⟩ := List.cons.inj hr
      exact hnw _ (h7 rfl _ r rfl)

example : pad false [97, 98] 7 [49, 50, 51] = some [49, 50, 51, 49, 50, 97, 98] ∧
    pad true [97, 98] 5 [49, 50] = some [97, 98, 49, 50, 49] ∧
    trim true true [32, 10, 97, 32, 98, 0xfeff] = some [97, 32, 98] ∧
    trim true true [32, 32] = some [] ∧ (0x85 : Nat) ∉ [32, 10, 97, 32, 98, 0xfeff] := by decide

/-! ### C52 -/

/-- C52 is violated: with a match result of user code which is longer than the rest of the
string, `$'` reads outside of the string. -/
theorem C52_violated : ∃ (m : Match) (templ : List Nat), m.pos ≤ m.str.length ∧
    getSubstitution m templ = .ub :=
  ⟨⟨[97], 0, [97, 98], [], none⟩, [36, 39], by decide, rfl⟩

/-- C52, partial: for a match which lies inside of the string, the result is the expansion which
the language defines, or the exception of user code. -/
theorem C52_partial (m : Match) (templ : List Nat)
    (h : m.pos + m.matched.length ≤ m.str.length) :
    ∃ o, Subst m.str m.pos m.matched m.caps m.groups templ o ∧
      (o = none → getSubstitution m templ = .throw) ∧
      ∀ r, o = some r → getSubstitution m templ = .ok r := by
  obtain ⟨o, h1, h2⟩ := getSubstitution_spec m h templ
  refine ⟨o, h1, fun h3 => ?_, fun r h3 => ?_⟩ <;> subst h3 <;> simpa [outcome] using h2

/-- The expansion is determined by the language. -/
theorem subst_unique {str : List Nat} {pos : Nat} {matched : List Nat}
    {caps : List (Option (List Nat))} {groups} {t : List Nat} {o o' : Option (List Nat)}
    (h : Subst str pos matched caps groups t o) (h' : Subst str pos matched caps groups t o') :
    o = o' := by
  induction h generalizing o' with
  | nil =>
    cases h' with
    | nil => rfl
    | throw _ n h1 h2 => exact absurd rfl h1
    | step _ n r rest h1 h2 h3 => exact absurd rfl h1
  | throw t n h1 h2 =>
    cases h' with
    | nil => exact absurd rfl h1
    | throw _ n h1 h2 => rfl
    | step _ n r rest h3 h4 h5 => rw [h2] at h4; cases h4
  | step t n r rest h1 h2 h3 ih =>
    cases h' with
    | nil => exact absurd rfl h1
    | throw _ n h4 h5 => rw [h2] at h5; cases h5
    | step _ n' r' rest' h4 h5 h6 =>
      rw [h2] at h5
      cases h5
      rw [ih h6]

/-- "[$1|$&|$`|$'|$$|$10|$2]" for the match "b" with capture "c" in "abc". -/
example : getSubstitution ⟨[97, 98, 99], 1, [98], [some [99]], none⟩
    [36, 49, 124, 36, 38, 124, 36, 96, 124, 36, 39, 124, 36, 36, 124, 36, 49, 48, 124, 36, 50] =
    .ok [99, 124, 98, 124, 97, 124, 99, 124, 36, 124, 99, 48, 124, 36, 50] := by rfl

/-! ### C59, C60 -/

/-- C59.  `split` with a separator gives the parts between the separators, the leftmost first, at
most `limit`; it reads only the string. -/
theorem C59_split (s sep : List Nat) (limit : Nat) (hsep : sep ≠ []) :
    ∃ xs, SplitOf sep s xs ∧ split s sep limit = some (xs.take limit) := by
  have hpos : 0 < sep.length := List.length_pos_iff.2 hsep
  have hgo : ∀ limit, 0 < limit → ∃ xs, SplitOf sep s xs ∧
      split s sep limit = some (xs.take limit) := by
    intro limit hl
    unfold split
    rw [if_neg (by omega), if_neg (by omega)]
    split
    · rename_i h0
      obtain rfl := List.length_eq_zero_iff.1 h0
      refine ⟨[[]], .last _ fun i hi => ?_, ?_⟩
      · have := hi.1; simp only [List.length_nil] at this; omega
      · rw [List.take_of_length_le (by simp; omega)]
    · obtain ⟨idx, h1, h2⟩ := found_indexOf s sep 0
      rw [h1]
      simp only
      obtain ⟨xs, h3, h4⟩ := splitLoop_spec s sep hsep limit (s.length + 1) 0 idx [] (by omega)
        (by omega) (by simpa using hl) h2
      exact ⟨xs, by simpa using h3, by simpa using h4⟩
  by_cases hl : limit = 0
  · subst hl
    obtain ⟨xs, h1, _⟩ := hgo 1 (by omega)
    exact ⟨xs, h1, by simp [split]⟩
  · exact hgo limit (by omega)

/-- C59.  With an empty separator the parts are the single code units. -/
theorem C59_split_chars (s : List Nat) (limit : Nat) :
    split s [] limit = some ((s.map fun c => [c]).take limit) := by
  unfold split
  split
  · rename_i h; subst h; simp
  · rw [if_pos (show ([] : List Nat).length = 0 from rfl), splitChars_spec s _ 0 (by omega)]
    simp only [List.drop_zero]
    by_cases h : limit ≤ s.length
    · rw [Nat.min_eq_left h, List.map_take]
    · rw [Nat.min_eq_right (by omega), List.take_length, List.take_of_length_le (by simp; omega)]

/-- C59.  Joining the parts gives the string back. -/
theorem C59_join (s sep : List Nat) (hsep : sep ≠ []) :
    ∃ xs, (∀ limit, xs.length ≤ limit → split s sep limit = some xs) ∧ join sep xs = s := by
  obtain ⟨xs, h1, h2⟩ := C59_split s sep (s.length + 2) hsep
  have huniq : ∀ (s : List Nat) (xs ys : List (List Nat)), SplitOf sep s xs → SplitOf sep s ys →
      xs = ys := by
    intro s xs ys hx
    induction hx generalizing ys with
    | last s h =>
      intro hy
      cases hy with
      | last _ h' => rfl
      | cut a b xs h1 h2 => exact absurd h1.2.1 (h _)
    | cut a b xs h1 h2 ih =>
      intro hy
      generalize he : a ++ sep ++ b = t at hy
      cases hy with
      | last _ h' => rw [he] at h1; exact absurd h1.2.1 (h' _)
      | cut a' b' ys h1' h2' =>
        have hl : a.length = a'.length := by
          rw [he] at h1
          have x := h1.2.2 a'.length (by omega) h1'.2.1
          have y := h1'.2.2 a.length (by omega) h1.2.1
          omega
        have e1 : a = a' := by
          have := congrArg (List.take a.length) he
          rw [List.append_assoc, List.take_left, hl, List.append_assoc, List.take_left] at this
          exact this
        subst e1
        have e2 : b = b' := List.append_cancel_left he
        subst e2
        rw [ih ys h2']
  refine ⟨xs, fun limit hl => ?_, (splitOf_join h1).1⟩
  obtain ⟨ys, h3, h4⟩ := C59_split s sep limit hsep
  obtain rfl := huniq s xs ys h1 h3
  rw [h4, List.take_of_length_le hl]

/-- C60.  `replaceAll` replaces every occurrence of the pattern, the leftmost first, and leaves
the rest alone; `rep i` is the replacement of the occurrence at `i`. -/
theorem C60_replaceAll (s p : List Nat) (hp : p ≠ []) (rep : Nat → Option (List Nat))
    (r : Nat → List Nat) (hr : ∀ i, OccursAt s p i → rep i = some (r i)) :
    ∃ t, ReplacedBy p r 0 s t ∧ replaceAll s p rep = some t := by
  obtain ⟨idx, h1, h2⟩ := found_indexOf s p 0
  obtain ⟨t, h3, h4⟩ := replaceLoop_spec s p hp rep r hr (s.length + 2) 0 idx [] (by omega)
    (by omega) h2
  refine ⟨t, by simpa using h3, ?_⟩
  unfold replaceAll
  rw [h1]
  simpa using h4

/-- C60.  The empty pattern occurs before every code unit and at the end. -/
theorem C60_replaceAll_empty (s : List Nat) (rep : Nat → Option (List Nat))
    (r : Nat → List Nat) (hr : ∀ i, i ≤ s.length → rep i = some (r i)) :
    replaceAll s [] rep = some (between r 0 s) :=
  replaceAll_empty s rep r hr

/-- C60.  Replacement templates: the matches lie inside of the string, so that nothing outside is
read, whatever the template. -/
theorem C60_template (s p templ : List Nat) (hp : p ≠ []) :
    ∃ (r : Nat → List Nat) (t : List Nat), ReplacedBy p r 0 s t ∧
      (∀ i, OccursAt s p i → Subst s i p [] none templ (some (r i))) ∧
      replaceAll s p (fun i => match getSubstitution ⟨s, i, p, [], none⟩ templ with
        | .ok x => some x
        | _ => none) = some t := by
  have hsub : ∀ i, OccursAt s p i → ∃ x, Subst s i p [] none templ (some x) ∧
      getSubstitution ⟨s, i, p, [], none⟩ templ = .ok x := by
    intro i hi
    obtain ⟨o, h1, h2⟩ := getSubstitution_spec ⟨s, i, p, [], none⟩ hi.1 templ
    have hne : ∀ (t : List Nat) (o : Option (List Nat)), Subst s i p [] none t o → o ≠ none := by
      intro t o ho
      induction ho with
      | nil => simp
      | throw t n h1 h2 =>
        unfold substStep at h2
        simp only at h2
        repeat' split at h2
        all_goals first | (cases h2; done) | (rename_i heq; cases heq)
      | step t n r rest h1 h2 h3 ih => simpa using ih
    obtain ⟨x, rfl⟩ := Option.ne_none_iff_exists'.1 (hne _ _ h1)
    exact ⟨x, h1, by simpa [outcome] using h2⟩
  classical
  let r : Nat → List Nat := fun i => if h : OccursAt s p i then (hsub i h).choose else []
  have hr : ∀ i, (h : OccursAt s p i) → r i = (hsub i h).choose := fun i h => by simp [r, h]
  obtain ⟨t, h1, h2⟩ := C60_replaceAll s p hp (fun i =>
    match getSubstitution ⟨s, i, p, [], none⟩ templ with
      | .ok x => some x
      | _ => none) r (fun i hi => by
        rw [(hsub i hi).choose_spec.2, hr i hi])
  exact ⟨r, t, h1, fun i hi => by rw [hr i hi]; exact (hsub i hi).choose_spec.1, h2⟩

/-- "a,b,,c" at "," and "aaa" with "aa" replaced. -/
example : split [97, 44, 98, 44, 44, 99] [44] 100 = some [[97], [98], [], [99]] ∧
    split [97, 44, 98, 44, 44, 99] [44] 2 = some [[97], [98]] ∧
    replaceAll [97, 97, 97] [97, 97] (fun i => some [48 + i]) = some [48, 97] ∧
    replaceAll [97, 98] [] (fun i => some [48 + i]) = some [48, 97, 49, 98, 50] := by decide

end Verif.Str
