import Verif.Lemmas.JsonPrint
import Verif.Lemmas.JsonTotal
import Verif.Lemmas.JsonStrict
import Verif.Lemmas.JsonHalf
/-
C47: `JSON.parse (JSON.stringify v)` is equal to `v`.
C48: `JSON.parse` throws `SyntaxError` for every text that is not JSON.

The grammar of JSON is `Text strict` in `Verif/Spec/Json.lean`; equality of values and the values
concerned are in `Verif/Spec/JsonValue.lean`.
-/
namespace Verif.Json

open Spec

variable {F : Type}

/-! ## C47 -/

/-- Indentation settings: nothing, a number, a string of white space.  Numbers below `-2 ^ 63` are
not among them, see `C47_violated`.  (A string such as `--` does not give JSON, by the standard.) -/
def Indents : SpaceArg → Prop
  | .none => True
  | .int n => -2 ^ 63 ≤ n
  | .inf neg => neg = false
  | .str s => ∀ c ∈ s, IsSpace c

/-- C47.  The text printed for a JSON value is a JSON text, it denotes a value equal to the value
printed, and that is what the parser makes of it.  `Contract L` is about `rjs_dtoa` and
`rjs_strtod`, which are not modelled. -/
theorem C47_partial (U : Uni) {L : Lib F} (hL : Contract L) {v : Val F} (hv : JsonValue L create v)
    {space : SpaceArg} (hs : Indents space) :
    ∃ text v', stringify L space v = .ok text ∧ Text strict (sem U L) (codePoints text) v' ∧
      parse U L text = .ok v' ∧ Equal L v v' := by
  have hg : ∃ gap, gapOf space = .ok gap ∧ ∀ g, gap = some g → White g := by
    cases space with
    | none => exact ⟨none, rfl, by simp⟩
    | int n =>
      simp only [Indents] at hs
      simp only [gapOf]
      rw [if_neg (by omega)]
      split
      · refine ⟨_, rfl, ?_⟩
        rintro g ⟨⟩ c hc
        rw [(List.mem_replicate.1 hc).2]
        exact Or.inl rfl
      · exact ⟨_, rfl, by simp⟩
    | inf neg =>
      simp only [Indents] at hs
      subst hs
      refine ⟨_, rfl, ?_⟩
      rintro g ⟨⟩ c hc
      rw [(List.mem_replicate.1 hc).2]
      exact Or.inl rfl
    | str s =>
      simp only [gapOf]
      split
      · exact ⟨_, rfl, by simp⟩
      · refine ⟨_, rfl, ?_⟩
        rintro g ⟨⟩ c hc
        exact hs c (List.mem_of_mem_take hc)
  obtain ⟨gap, h1, h2⟩ := hg
  obtain ⟨t, h3, b, v', h4, h5, h6⟩ := prints (U := U) hL hv gap [] h2 (by intro c hc; cases hc)
  have h7 : codePoints t = b := by
    have := h6 []
    simpa [codePoints] using this
  have h8 : Text strict (sem U L) (codePoints t) v' := ⟨b, [], by simp [h7], h5, Or.inl .nil⟩
  refine ⟨t, v', ?_, h8, parse_complete h8, h4⟩
  rw [stringify, h1]
  exact h3

/-- What the hypotheses of `C47_partial` are met by: `{"b": [0.5, -0.5, -0, null], "7": "\n"}`, with
lines broken and indented by two spaces. -/
example : Contract halves ∧ Indents (.int 2) ∧ JsonValue halves create
    (.obj ([([98], .arr [.num 2, .num 3, .num 1, .null]), ([55], .str [10])].foldl
      (fun l p => create l p.1 p.2) [])) := by
  refine ⟨contract_halves, by simp [Indents], .obj _ ?_ ?_⟩
  · intro p hp c hc
    simp at hp
    rcases hp with rfl | rfl <;> simp at hc <;> omega
  · intro p hp
    simp at hp
    rcases hp with rfl | rfl
    · refine .arr ?_
      intro v hv
      simp at hv
      rcases hv with rfl | rfl | rfl | rfl
      · exact .num (by simp [halves]) (by simp [halves])
      · exact .num (by simp [halves]) (by simp [halves])
      · exact .num (by simp [halves]) (by simp [halves])
      · exact .null
    · exact .str (by simp)

/-- C47 fails for the indentation `-Infinity`, or a number below `-2 ^ 63`: a `double` that is out of
range is converted to `ssize_t` (rjs_json_opt.c:1045). -/
theorem C47_violated (L : Lib F) :
    (∀ v, stringify L (.inf true) v = .error .undef) ∧
    (∀ n : Int, n < -2 ^ 63 → ∀ v, stringify L (.int n) v = .error .undef) := by
  refine ⟨fun v => rfl, fun n hn v => ?_⟩
  simp only [stringify, gapOf]
  rw [if_pos (by omega)]

/-! ## C48 -/

/-- What `JSON.parse` accepts is a JSON text up to the deviations of `Dev`, and the value is one it
denotes (a deviating numeral or escape sequence denotes whatever the engine makes of it).  C48 would
have `strict` in place of `loose`; see `C48_violated`. -/
theorem C48_partial (U : Uni) (L : Lib F) {text : List Nat} {v : Val F} (h : parse U L text = .ok v) :
    Text loose (sem U L) (lines (codePoints text)) v :=
  parse_sound h

/-- Every JSON text is accepted, and the value is the one it denotes. -/
theorem C48_accepts (U : Uni) (L : Lib F) {text : List Nat} {v : Val F}
    (h : Text strict (sem U L) (codePoints text) v) : parse U L text = .ok v :=
  parse_complete h

/-- So a JSON text denotes one value. -/
theorem C48_unique (U : Uni) (L : Lib F) {text : List Nat} {v v' : Val F}
    (h : Text strict (sem U L) (codePoints text) v) (h' : Text strict (sem U L) (codePoints text) v') : v = v' := by
  have := (parse_complete h).symm.trans (parse_complete h')
  injection this

/-- For a text which is not JSON even up to the deviations, and has no `\u{`, `SyntaxError` is
thrown. -/
theorem C48_rejects_partial (U : Uni) (L : Lib F) {text : List Nat}
    (h : ∀ v, ¬ Text loose (sem U L) (lines (codePoints text)) v)
    (hb : ¬ ∃ a b, lines (codePoints text) = a ++ 92 :: 117 :: 123 :: b) : parse U L text = .syntaxError := by
  have hf := parse_fine U L text
  cases hp : parse U L text with
  | ok v => exact absurd (parse_sound hp) (h v)
  | syntaxError => rfl
  | undef => exact absurd (hf.2 hp) hb
  | fuel => exact absurd hp hf.1

/-- Every text is read to an end, and the result is defined unless the text has `\u{`. -/
theorem C48_ends (U : Uni) (L : Lib F) (text : List Nat) :
    parse U L text ≠ .fuel ∧
    (parse U L text = .undef → ∃ a b, lines (codePoints text) = a ++ 92 :: 117 :: 123 :: b) :=
  parse_fine U L text

/-- C48 fails: every deviation occurs.  For each of them there is a text that is not JSON, is JSON up
to this deviation alone, and is accepted.  They are `[1,]`, `{a:1}`, `+1`, `NaN`, `null`, a
vertical tab and `1`, `/**/1`, `'a'`, a tab in quotes, `"\x41"`, `.5`. -/
theorem C48_violated (U : Uni) (L : Lib F) (d : Dev) :
    ∃ text v, (∀ v', ¬ Text strict (sem U L) (codePoints text) v') ∧
      Text (only d) (sem U L) (lines (codePoints text)) v ∧ parse U L text = .ok v := by
  have sp : ∀ {c}, 33 ≤ c → ¬ IsSpace c := by intro c h; unfold IsSpace; omega
  have one : IsNumber [49] := ⟨[49], [], [], rfl, Or.inr ⟨49, [], rfl, by omega, by omega, by simp⟩, Or.inl rfl, Or.inl rfl⟩
  have whole : ∀ {t : List Nat} {v : Val F}, G (only d) (sem U L) .value t v → Text (only d) (sem U L) t v :=
    fun h => ⟨_, [], by simp, h, Or.inl .nil⟩
  have num1 : ∀ {w}, Space (only d) (sem U L) w →
      G (only d) (sem U L) .value (w ++ [49]) (.num (L.strtod [49])) := fun h => .num h (Or.inl ⟨one, rfl⟩)
  have hd : only d d := rfl
  have raw : ∀ {c t s}, U.isCont c = true → Name (only d) (sem U L) t s → Name (only d) (sem U L) (c :: t) (utf16 c ++ s) :=
    fun h h' => .raw h h'
  cases d with
  | comma =>
    exact ⟨[91, 49, 44, 93], .arr [.num (L.strtod [49])], not_strict_comma,
      whole (.arr .nil (.itemsCons (num1 .nil) .nil (.itemsClose (Or.inr hd) .nil))), rfl⟩
  | key =>
    exact ⟨[123, 97, 58, 49, 125], .obj (create [] [97] (.num (L.strtod [49]))), not_strict_key,
      whole (.obj .nil (.membersLast .nil (Or.inr ⟨hd, by simp, raw (c := 97) rfl .nil⟩) .nil (num1 .nil) .nil)), rfl⟩
  | sign =>
    exact ⟨[43, 49], .num (L.strtod [49]),
      not_strict_first (cs := []) ⟨sp (by omega), by unfold IsDigit; omega⟩ (sp (by omega)),
      whole (.sign hd .nil (Or.inl rfl) .nil (by simp) (Or.inl ⟨_, Or.inl ⟨one, rfl⟩⟩) (Or.inl ⟨_, rfl⟩)), rfl⟩
  | word =>
    exact ⟨[78, 97, 78], .num L.nan,
      not_strict_first (cs := [97]) ⟨sp (by omega), by unfold IsDigit; omega⟩ (sp (by omega)),
      whole (.word hd .nil (by simp) (raw (c := 78) rfl (raw (c := 97) rfl (raw (c := 78) rfl .nil))) (Or.inr rfl)), rfl⟩
  | name =>
    refine ⟨[92, 117, 48, 48, 54, 101, 117, 108, 108], .null,
      not_strict_first (cs := [117, 48, 48, 54, 101, 117, 108]) ⟨sp (by omega), by unfold IsDigit; omega⟩ (sp (by omega)),
      whole (.spelled hd .nil (by simp) (.esc (m := [48, 48, 54, 101]) (x := 110) hd ?_
        (raw (c := 117) rfl (raw (c := 108) rfl (raw (c := 108) rfl .nil)))) (Or.inl ⟨rfl, rfl⟩)), rfl⟩
    intro c hc
    refine Or.inl ?_
    simp only [List.mem_cons, List.not_mem_nil, or_false] at hc
    rcases hc with rfl | rfl | rfl | rfl
    · exact ⟨0, by unfold IsHex; omega⟩
    · exact ⟨0, by unfold IsHex; omega⟩
    · exact ⟨6, by unfold IsHex; omega⟩
    · exact ⟨14, by unfold IsHex; omega⟩
  | space =>
    exact ⟨[11, 49], .num (L.strtod [49]),
      not_strict_first (cs := []) ⟨by unfold IsSpace; omega, by unfold IsDigit; omega⟩ (sp (by omega)),
      whole (num1 (.other hd rfl .nil)), rfl⟩
  | comment =>
    exact ⟨[47, 42, 42, 47, 49], .num (L.strtod [49]),
      not_strict_first (cs := [42, 42, 47]) ⟨sp (by omega), by unfold IsDigit; omega⟩ (sp (by omega)),
      whole (num1 (.block (m := []) hd .nil)), rfl⟩
  | quote =>
    exact ⟨[39, 97, 39], .str [97],
      not_strict_first (cs := [97]) ⟨sp (by omega), by unfold IsDigit; omega⟩ (sp (by omega)),
      whole (.str .nil ⟨39, [97], rfl, Or.inr ⟨hd, Or.inl rfl⟩, .raw (by omega) (by omega) (Or.inl (by omega)) .nil⟩), rfl⟩
  | control =>
    exact ⟨[34, 9, 34], .str [9], not_strict_str (cs := [9]) no_tab,
      whole (.str .nil ⟨34, [9], rfl, Or.inl rfl, .raw (by omega) (by omega) (Or.inr hd) .nil⟩), rfl⟩
  | escape =>
    refine ⟨[34, 92, 120, 52, 49, 34], .str [65], not_strict_str (cs := [92, 120, 52, 49]) no_hex,
      whole (.str .nil ⟨34, [92, 120, 52, 49], rfl, Or.inl rfl,
        .odd (m := [52, 49]) (t := []) (x := [65]) hd ⟨?_, ?_, by omega⟩ .nil⟩), rfl⟩
    · intro v; unfold Escape; omega
    · intro c hc
      refine Or.inl ?_
      simp only [List.mem_cons, List.not_mem_nil, or_false] at hc
      rcases hc with rfl | rfl
      · exact ⟨4, by unfold IsHex; omega⟩
      · exact ⟨1, by unfold IsHex; omega⟩
  | number =>
    have odd : OddNumber [46, 53] := by
      refine ⟨?_, Or.inl ⟨_, rfl⟩, Or.inr (Or.inr (Or.inl ⟨_, rfl⟩))⟩
      intro c hc
      simp only [List.mem_cons, List.not_mem_nil, or_false] at hc
      unfold NumChar IsDigit; omega
    exact ⟨[46, 53], .num (L.strtod [46, 53]), not_strict_number (t := [46]) odd (sp (by omega)),
      whole (.num .nil (Or.inr ⟨hd, odd, Or.inl ⟨_, rfl⟩⟩)), rfl⟩

/-- Numerals that are accepted and are not of JSON: `010` (it is eight), `09`, `0x1f`, `0b11`, `1.`, `1_0`,
`1n` (the value is a BigInt). -/
theorem C48_violated_numbers (U : Uni) (L : Lib F) :
    ∀ t ∈ [[48, 49, 48], [48, 57], [48, 120, 49, 102], [48, 98, 49, 49], [49, 46], [49, 95, 48], [49, 110]],
      (∀ v, ¬ Text strict (sem U L) (codePoints t) v) ∧ ∃ v, parse U L t = .ok v := by
  have sp : ∀ {c}, 33 ≤ c → ¬ IsSpace c := by intro c h; unfold IsSpace; omega
  have nc : ∀ l : List Nat, (∀ c ∈ l, (48 ≤ c ∧ c ≤ 57) ∨ c = 120 ∨ c = 102 ∨ c = 98 ∨ c = 46 ∨ c = 95 ∨ c = 110) → ∀ c ∈ l, NumChar c := by
    intro l h c hc
    have := h c hc
    unfold NumChar IsDigit; omega
  intro t ht
  simp only [List.mem_cons, List.not_mem_nil, or_false] at ht
  rcases ht with rfl | rfl | rfl | rfl | rfl | rfl | rfl
  · exact ⟨not_strict_number (t := [48, 49]) ⟨nc _ (by simp), Or.inr ⟨48, _, by unfold IsDigit; omega, rfl⟩,
      Or.inr (Or.inr (Or.inr (Or.inl ⟨_, _, rfl, by omega⟩)))⟩ (sp (by omega)), _, rfl⟩
  · exact ⟨not_strict_number (t := [48]) ⟨nc _ (by simp), Or.inr ⟨48, _, by unfold IsDigit; omega, rfl⟩,
      Or.inr (Or.inr (Or.inr (Or.inl ⟨_, _, rfl, by omega⟩)))⟩ (sp (by omega)), _, rfl⟩
  · exact ⟨not_strict_number (t := [48, 120, 49]) ⟨nc _ (by simp), Or.inr ⟨48, _, by unfold IsDigit; omega, rfl⟩,
      Or.inr (Or.inr (Or.inr (Or.inl ⟨_, _, rfl, by omega⟩)))⟩ (sp (by omega)), _, rfl⟩
  · exact ⟨not_strict_number (t := [48, 98, 49]) ⟨nc _ (by simp), Or.inr ⟨48, _, by unfold IsDigit; omega, rfl⟩,
      Or.inr (Or.inr (Or.inr (Or.inl ⟨_, _, rfl, by omega⟩)))⟩ (sp (by omega)), _, rfl⟩
  · exact ⟨not_strict_number (t := [49]) ⟨nc _ (by simp), Or.inr ⟨49, _, by unfold IsDigit; omega, rfl⟩,
      Or.inr (Or.inr (Or.inr (Or.inr ⟨[49], [], rfl, by simp⟩)))⟩ (sp (by omega)), _, rfl⟩
  · exact ⟨not_strict_number (t := [49, 95]) ⟨nc _ (by simp), Or.inr ⟨49, _, by unfold IsDigit; omega, rfl⟩,
      Or.inl (by simp)⟩ (sp (by omega)), _, rfl⟩
  · exact ⟨not_strict_number (t := [49]) ⟨nc _ (by simp), Or.inr ⟨49, _, by unfold IsDigit; omega, rfl⟩,
      Or.inr (Or.inl ⟨[49], rfl⟩)⟩ (sp (by omega)), _, rfl⟩

/-- C48 fails: for `"\u{1100000}"` a negative number is shifted left (rjs_lex.c:272). -/
theorem C48_violated_undef (U : Uni) (L : Lib F) :
    parse U L [34, 92, 117, 123, 49, 49, 48, 48, 48, 48, 48, 125, 34] = .undef := rfl

/-- The grammar is not empty, and neither is its complement: `{"a":[1,true]}` is a JSON text,
`[1 2]` is refused. -/
example (U : Uni) (L : Lib F) :
    parse U L [123, 34, 97, 34, 58, 91, 49, 44, 116, 114, 117, 101, 93, 125] =
      .ok (.obj [([97], .arr [.num (L.strtod [49]), .bool true])]) ∧
    parse U L [91, 49, 32, 50, 93] = .syntaxError := ⟨rfl, rfl⟩

example (U : Uni) (L : Lib F) : Text strict (sem U L) (codePoints [91, 116, 114, 117, 101, 32, 93]) (.arr [.bool true]) :=
  ⟨_, [], rfl, .arr .nil (.itemsLast (a := [116, 114, 117, 101]) (w := [32]) (.literal .nil (Or.inr (Or.inl ⟨rfl, rfl⟩)))
    (.char (Or.inl rfl) .nil)), Or.inl .nil⟩

end Verif.Json
