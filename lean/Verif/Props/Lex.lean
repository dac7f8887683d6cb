import Verif.Lemmas.LexTok3
import Verif.Lemmas.LexInput

/-!
# C89: tokens of scripts

The tokens that `rjs_lex_get_token` gives are those of the lexical grammar (ECMA-262, clause 12): the
text is divided into gaps and tokens as the standard divides it, each token has the value the standard
gives, and the braces of templates are told from the others.

The code deviates; the theorems leave those texts out (`Readable`, `Usual`), and the violations show
that this is needed.

* `C89_read_partial`: the tokens of the standard are read.
* `C89_sound_partial`: what is read is a token of the standard.
* `C89_defined`, `C89_ends`: undefined behaviour only with too large values in braces.
* `C89_input`: reading and putting back characters.
-/
namespace Verif.Lex
open Json (Out Uni)
open Json.Spec (lines codePoints IsDigit utf16)
open Spec (Fits Source Std Token Small norm Next)

/-- Only ASCII. -/
def ascii : Uni := ⟨fun c => c == 0x2028 || c == 0x2029, fun _ => false, fun _ => false⟩

theorem ascii_fits : Fits ascii := ⟨rfl, rfl⟩

/-- The parser wants an operator, or an operand. -/
def op : Mode := ⟨true, false⟩
def opd : Mode := ⟨false, false⟩

/-- C89, texts of the standard: divided into tokens, with any sequence of wishes of the parser, they are
read as these tokens (legacy numbers up to zeros in front).

Partial: templates with `\u{}` or too large values, legacy numbers with separators or followed by a
point, and regular expressions with a `]` behind a backslash in a class are left out; of these see the
violations.  Numbers directly followed by an escape sequence are not looked at. -/
theorem C89_read_partial (U : Uni) (hU : Fits U) (ms : List Mode) (cs last : List Nat) (toks : List Tok)
    (h : Source U (fun m cont w rest tok => Token U False (· ≠ 93) m cont w rest tok ∧ Readable w rest tok)
      true [] ms cs toks last) :
    ∃ toks', tokens U ms St.init cs = .ok toks' last ∧ toks'.map norm = toks.map norm :=
  tokens_of hU h .nil rfl

/-- C89, what is read: the text is divided into gaps and tokens, the braces that continue a template
are those which the standard says, and each token is the one of the standard.

Partial: the last part is left out for strings and templates with `\u{}`, regular expressions with `\]`, and
octal digits with a point or an exponent. -/
theorem C89_sound_partial (U : Uni) (hU : Fits U) (ms : List Mode) (cs last : List Nat) (toks : List Tok)
    (h : tokens U ms St.init cs = .ok toks last) :
    Source U (fun m cont w rest tok => Usual w tok → ∃ tok', Std U m cont w rest tok' ∧ norm tok = norm tok')
      true [] ms cs toks last :=
  tokens_ok hU .nil h

/-- C89: undefined behaviour comes only from values in braces which are too large. -/
theorem C89_defined (U : Uni) (hU : Fits U) (m : Mode) (s : St) (cs : List Nat) (h : Small cs) : token U m s cs ≠ .undef :=
  fun hu => (token_fine hU).1 hu h

/-- C89: the loops end. -/
theorem C89_ends (U : Uni) (hU : Fits U) (m : Mode) (s : St) (cs : List Nat) : token U m s cs ≠ .fuel :=
  (token_fine hU).2

/-- C89, the input: wherever reading leads, putting the character back restores the state, and with the
flag for ends of lines the characters are the code points, with line feeds for the ends of lines. -/
theorem C89_input (chars : List Nat) (crlf : Bool) (i : Input) (h : Reached chars crlf i) :
    i.get.2.unget i.get.1 = some i ∧
    (crlf = true → lines (codePoints (chars.drop i.pos)) =
      i.get.1.toList ++ lines (codePoints (chars.drop i.get.2.pos))) := by
  have hs := get_step i
  refine ⟨hs.unget h.clean, ?_⟩
  rintro rfl
  have h1 := hs.decode h.keeps.2
  rw [h.keeps.1, (Reached.get h).keeps.1, Json.decode_eq, Json.decode_eq] at h1
  exact h1

/-! ### Examples -/

-- a?.5:`x${{}}y`
example : tokens ascii [opd, op, opd, op, opd, opd, op, opd] St.init (chars "a?.5:`x${{}}y`") =
    .ok [.ident ⟨[97], none, false⟩, .punct [63], .num ⟨10, [46, 53], false, false⟩, .punct [58],
      .templ true ⟨false, some [120], [120]⟩, .punct [123], .punct [125], .templ false ⟨true, some [121], [121]⟩] [] := by
  decide +kernel

example : Source ascii (fun m cont w rest tok => Token ascii False (· ≠ 93) m cont w rest tok ∧ Readable w rest tok)
    true [] [opd, op] (chars "if >>=") [.ident ⟨[105, 102], some .reserved, false⟩, .punct [62, 62, 61]] [] := by
  have he : ∀ c, c < 128 → ascii.isWhite c = false → ¬ Spec.IsWhite ascii c := by
    intro c _ h1 h2
    rw [← isWhite_iff ascii_fits] at h2
    rw [h2] at h1
    cases h1
  refine .cons (g := []) (w := [105, 102]) (rest := [32, 62, 62, 61]) ⟨[], [], rfl, by simp, .none, .nil, ?_, by simp, by simp⟩
    ⟨.ident (e := false) ?_ ⟨?_, by simp⟩, trivial⟩
    (.cons (g := [32]) (w := [62, 62, 61]) (rest := []) ⟨[], [32], rfl, by simp, .none, .white ?_ .nil, ?_, by simp, by simp⟩
      ⟨.punct ?_ (by simp) (by simp [opd, op]) (by simp), trivial⟩ .nil)
  · rw [List.cons_append, Next.cons]; exact he _ (by decide) rfl
  · exact .char (c := 105) (by unfold Spec.IsStart; omega) (.char (c := 102) (by unfold Spec.IsPart Spec.IsStart; omega) .nil)
  · rw [Next.cons, ← isCont_iff]; decide
  · unfold Spec.IsWhite; omega
  · rw [List.cons_append, Next.cons]; exact he _ (by decide) rfl
  · rcases lexPunct_spec [62, 62, 61] with ⟨p, r, h1, h2, h3⟩ | ⟨h1, _⟩
    · have : lexPunct [62, 62, 61] = .ok [62, 62, 61] [] := by decide +kernel
      rw [this] at h1
      cases h1
      exact h3
    · have : lexPunct [62, 62, 61] = .ok [62, 62, 61] [] := by decide +kernel
      rw [this] at h1
      cases h1

example : Small (chars "\\u{10ffff}") := by
  intro a ds c b n h h1 h2
  have hlen := congrArg List.length h
  obtain rfl : a = [] := by
    cases a with
    | nil => rfl
    | cons x a =>
      exfalso
      cases a with
      | nil => simp [chars] at h
      | cons y a => cases a with
        | nil => simp [chars] at h
        | cons z a =>
          have h3 : 92 ∈ (chars "\\u{10ffff}").drop 1 := by rw [h]; simp
          revert h3; decide
  have h3 : chars "10ffff}" = ds ++ c :: b := by simpa [chars] using h
  have hc125 : ∀ x v, Json.Spec.IsHex x v → x ≠ 125 := by intro x v hx; unfold Json.Spec.IsHex at hx; omega
  have h4 : ds.length ≤ 5 := by
    rcases Nat.lt_or_ge ds.length 6 with hl | hl
    · omega
    · exfalso
      have h5 : (chars "10ffff}")[6]? = some 125 := by decide
      have h6 : ds.length = 6 := by
        have := congrArg List.length h3
        have e : (chars "10ffff}").length = 7 := by decide
        simp [e] at this; omega
      rw [h3, List.getElem?_append_right (by omega), h6] at h5
      simp at h5
      obtain ⟨v, hv⟩ := h2
      exact hc125 c v hv h5
  have bound : ∀ {ds : List Nat} {a n}, Spec.Hexes a ds n → n < (a + 1) * 16 ^ ds.length := by
    intro ds
    induction ds with
    | nil => intro a n h; cases h; simp
    | cons x ds ih =>
      intro a n h
      cases h with
      | @cons _ _ v _ _ hx h =>
        have h7 := ih h
        have : v < 16 := by unfold Json.Spec.IsHex at hx; omega
        calc n < (16 * a + v + 1) * 16 ^ ds.length := h7
          _ ≤ ((a + 1) * 16) * 16 ^ ds.length := Nat.mul_le_mul_right _ (by omega)
          _ = (a + 1) * 16 ^ (ds.length + 1) := by rw [Nat.pow_succ, Nat.mul_assoc, Nat.mul_comm 16]
  have h8 := bound h1
  have h9 : 16 ^ ds.length ≤ 16 ^ 5 := Nat.pow_le_pow_right (by decide) h4
  have : (16 : Nat) ^ 5 = 1048576 := by decide
  omega

example : Reached [13, 10, 0xd83d, 0xde00] true ⟨[13, 10, 0xd83d, 0xde00], true, 2⟩ := .get .start

/-! ### Violations -/

/-- `/[\]/]/` is one regular expression; the code ends it at the second slash (rjs_lex.c:1031-1046). -/
theorem C89_class_violated :
    Std ascii opd false (chars "/[\\]/]/") [] (.regexp (chars "[\\]/]") []) ∧
    token ascii opd St.init (chars "/[\\]/]/") = .ok (.regexp (chars "[\\]") [], ⟨0, [], false⟩) (chars "]/") := by
  refine ⟨?_, by decide +kernel⟩
  have h : Spec.ReChars (fun _ => True) false [91, 92, 93, 47, 93] :=
    .cls (.clsEsc (by unfold Json.Spec.IsLine; omega) trivial (.clsChar (by unfold Json.Spec.IsLine; omega) (by omega) (by omega) (.clsEnd .nil)))
  exact .regexp (flags := []) rfl ⟨h, by simp, by simp⟩ (by simp) Next.nil

/-- `"\u{}"` is no string; the code reads it as U+0000 (rjs_lex.c:245-285). -/
theorem C89_empty_violated :
    token ascii opd St.init (chars "\"\\u{}\"") = .ok (.str ⟨[0], true, false⟩ false, ⟨0, [], false⟩) [] ∧
    ∀ w rest tok, w ++ rest = chars "\"\\u{}\"" → ¬ Std ascii opd false w rest tok := by
  refine ⟨by decide +kernel, ?_⟩
  intro w rest tok hw h
  have hw : w ++ rest = [34, 92, 117, 123, 125, 34] := hw
  cases h with
  | fin => cases hw
  | @str q body s e l u _ hq hc _ =>
    simp only [List.cons_append, List.append_assoc, List.nil_append, List.cons.injEq] at hw
    obtain ⟨rfl, hw⟩ := hw
    cases hc with
    | nil => cases hw
    | char _ h _ _ _ => exact h (List.cons.inj hw).1
    | @esc m v t s e l hm _ =>
      simp only [List.cons_append, List.append_assoc, List.cons.injEq, true_and] at hw
      cases hm with
      | single h => have := (List.cons.inj hw).1; unfold Spec.Single at h; omega
      | other _ _ _ h _ => exact h (List.cons.inj hw).1
      | line h => have := (List.cons.inj hw).1; unfold Json.Spec.IsLine at h; omega
      | zero _ => cases hw
      | hex _ _ => cases hw
      | uni hu =>
        cases hu with
        | four h4 _ =>
          have := congrArg List.length hw
          simp at this; omega
        | @braces ds n hd hx _ =>
          rcases hd with hd | hd
          · simp only [List.cons_append, List.cons.injEq, true_and] at hw
            cases ds with
            | nil => exact hd rfl
            | cons x ds =>
              simp only [List.cons_append, List.cons.injEq] at hw
              obtain ⟨rfl, _⟩ := hw
              cases hx with
              | cons hx _ => unfold Json.Spec.IsHex at hx; omega
          · exact hd
    | @legacy m v t s e l hm _ =>
      simp only [List.cons_append, List.append_assoc, List.cons.injEq, true_and] at hw
      cases hm <;> simp only [List.cons_append, List.cons.injEq] at hw <;> have h117 := hw.1 <;> omega
  | num hn _ _ =>
    obtain ⟨c, t, rfl, hh⟩ := Num.head hn
    have := (List.cons.inj hw).1
    unfold IsDigit at hh; omega
  | punct hl _ _ _ =>
    obtain ⟨c, t, rfl, hh⟩ := punct_head hl.1.1
    exact hh.h34 (List.cons.inj hw).1
  | head _ => cases hw
  | plain _ => cases hw
  | middle _ _ => cases hw
  | tail _ _ => cases hw
  | regexp _ _ _ _ => cases hw
  | priv _ _ => cases hw
  | ident hn _ =>
    obtain ⟨c, t, rfl, hh⟩ := Name.head hn
    have := (List.cons.inj hw).1
    unfold Spec.IsStart at hh; omega

theorem num_end {text rest : List Nat} {c : Nat} {r : List Nat} (hr : rest = c :: r) (hc : ¬ IsDigit c) (hs : ¬ Spec.IsStart ascii c)
    (hp : c = 46 → ∀ b ds n l, ¬ Spec.Num (text ++ [46]) b ds n l) : Spec.NumEnd ascii text rest := by
  subst hr
  refine ⟨?_, ?_⟩
  · rw [Next.cons]; exact fun h => h.elim hc hs
  · rintro r' h
    exact hp (List.cons.inj h).1

/-- `07.` is no number. -/
theorem no_point (b ds n l) : ¬ Spec.Num ([48, 55] ++ [46]) b ds n l := by
  intro h
  rcases Num.point_end h with ⟨d, h | ⟨_, h⟩⟩ | ⟨i, h, h1⟩
  · cases h.1
  · exact h _ rfl
  · obtain ⟨_, rfl⟩ := List.cons.inj h
    obtain ⟨_, _, c, hc, h2⟩ := h1
    simp at hc
    subst hc
    apply h2; unfold Spec.IsOctal; omega

/-- `07.5` is two tokens, which the parser refuses; the code reads one number.  `07.a` is three tokens;
the code refuses it (rjs_lex.c:556-559). -/
theorem C89_octal_violated :
    Std ascii opd false (chars "07") (chars ".5") (.num ⟨8, chars "7", false, true⟩) ∧
    token ascii opd St.init (chars "07.5") = .ok (.num ⟨10, chars "7.5", false, true⟩, ⟨0, [], false⟩) [] ∧
    Std ascii opd false (chars "07") (chars ".a") (.num ⟨8, chars "7", false, true⟩) ∧
    token ascii opd St.init (chars "07.a") = .err := by
  have h : Spec.Num [48, 55] 8 [55] false true := .legacy ⟨by simp, by simp [Spec.IsOctal]⟩
  refine ⟨.num h (num_end (c := 46) rfl ?_ ?_ fun _ => no_point) (by simp [opd]), by decide +kernel,
    .num h (num_end (c := 46) rfl ?_ ?_ fun _ => no_point) (by simp [opd]), by decide +kernel⟩
  all_goals first | (unfold IsDigit; omega) | (unfold Spec.IsStart; omega)

/-- `08.5_1` is a number; the code refuses it (rjs_lex.c:619-629). -/
theorem C89_separator_violated :
    Std ascii opd false (chars "08.5_1") [] (.num ⟨10, chars "08.51", false, true⟩) ∧
    token ascii opd St.init (chars "08.5_1") = .err := by
  refine ⟨?_, by decide +kernel⟩
  have d : ∀ c, 48 ≤ c → c ≤ 57 → IsDigit c := fun c h1 h2 => ⟨h1, h2⟩
  have h : Spec.Num (48 :: ([56] ++ 46 :: [53, 95, 49] ++ [])) 10 (48 :: ([56] ++ 46 :: [53, 49] ++ [])) false true :=
    .nonOctal ⟨by simp, by simp [IsDigit], 56, by simp, by unfold Spec.IsOctal; omega⟩
      (.digits (.sep (d 53 (by omega) (by omega)) (.one (d 49 (by omega) (by omega))))) .none
  exact .num h ⟨Next.nil, by simp⟩ (by simp [opd])

/-- A template with `\u{1100000}` has no cooked value; the code shifts a negative number (rjs_lex.c:245-285).
One with `\u{}` has none either; the code takes U+0000. -/
theorem C89_template_violated :
    (∃ tok, Std ascii opd false (chars "`\\u{1100000}`") [] tok) ∧
    token ascii opd St.init (chars "`\\u{1100000}`") = .undef ∧
    Std ascii opd false (chars "`\\u{}`") [] (.templ true ⟨true, none, chars "\\u{}"⟩) ∧
    token ascii opd St.init (chars "`\\u{}`") = .ok (.templ true ⟨true, some [0], chars "\\u{}"⟩, ⟨0, [], false⟩) [] := by
  have p : ∀ {c t}, c ≠ 96 → c ≠ 92 → c ≠ 36 → Spec.TChars False t (some t) → utf16 c = [c] → Spec.TChars False (c :: t) (some (c :: t)) := by
    intro c t h1 h2 h3 h4 h5
    have := Spec.TChars.char h1 h2 (fun h => absurd h h3) h4
    rwa [h5] at this
  refine ⟨⟨_, .plain (body := chars "\\u{1100000}") (.bad (t := chars "u{1100000}") (s := some (chars "u{1100000}")) ⟨117, chars "{1100000}", rfl, ?_⟩ ?_)⟩, by decide +kernel,
    .plain (body := chars "\\u{}") (.bad (t := chars "u{}") (s := some (chars "u{}")) ⟨117, chars "{}", rfl, ?_⟩ ?_), by decide +kernel⟩
  · refine Or.inr (Or.inr (Or.inr ⟨rfl, ?_⟩))
    rintro ⟨a, b, n, h1, h2⟩
    have h1 : a ++ b = [123, 49, 49, 48, 48, 48, 48, 48, 125] := (List.cons.inj h1).2
    generalize hg : 117 :: a = g at h2
    cases h2 with
    | @four ds n h3 h4 =>
      obtain ⟨_, rfl⟩ := List.cons.inj hg
      cases h4 with
      | nil => cases h3
      | cons h5 _ =>
        have := (List.cons.inj h1).1
        unfold Json.Spec.IsHex at h5; omega
    | @braces ds n _ h3 h4 =>
      obtain ⟨_, rfl⟩ := List.cons.inj hg
      have h1 : ds ++ [125] ++ b = [49, 49, 48, 48, 48, 48, 48, 125] := (List.cons.inj h1).2
      have h5 : ∀ {a ds m}, Spec.Hexes a ds m → 125 ∉ ds := by
        intro a ds m h
        induction h with
        | nil => simp
        | @cons a c v ds m hx _ ih =>
          intro hm
          rcases List.mem_cons.1 hm with h | h
          · unfold Json.Spec.IsHex at hx; omega
          · exact ih h
      have h6 : ds ++ 125 :: b = [49, 49, 48, 48, 48, 48, 48] ++ 125 :: [] := by simpa using h1
      obtain ⟨b', h7, h8⟩ := append_split h6 (h5 h3)
      cases b' with
      | cons x b' =>
        have := congrArg List.length h8
        have h9 : 125 ∈ [49, 49, 48, 48, 48, 48, 48] := by
          rw [h7, (List.cons.inj h8).1]; simp
        revert h9; decide
      | nil =>
        rw [List.append_nil] at h7
        subst h7
        have h10 : Spec.Hexes 0 [49, 49, 48, 48, 48, 48, 48] 0x1100000 := by
          have one : Json.Spec.IsHex 49 1 := by unfold Json.Spec.IsHex; omega
          have zero : Json.Spec.IsHex 48 0 := by unfold Json.Spec.IsHex; omega
          exact .cons one (.cons one (.cons zero (.cons zero (.cons zero (.cons zero (.cons zero .nil))))))
        have uniq : ∀ {ds : List Nat} {a m m'}, Spec.Hexes a ds m → Spec.Hexes a ds m' → m = m' := by
          intro ds
          induction ds with
          | nil => intro a m m' h h'; cases h; cases h'; rfl
          | cons c ds ih =>
            intro a m m' h h'
            cases h with
            | @cons _ _ v _ _ hx h =>
              cases h' with
              | @cons _ _ v' _ _ hx' h' =>
                have : v = v' := by unfold Json.Spec.IsHex at hx hx'; omega
                subst this
                exact ih h h'
        have := uniq h3 h10
        omega
  · repeat first | exact .nil | refine p (by decide) (by decide) (by decide) ?_ (by decide)
  · refine Or.inr (Or.inr (Or.inr ⟨rfl, ?_⟩))
    rintro ⟨a, b, n, h1, h2⟩
    have h1 : a ++ b = [123, 125] := (List.cons.inj h1).2
    generalize hg : 117 :: a = g at h2
    cases h2 with
    | @four ds n h3 h4 =>
      obtain ⟨_, rfl⟩ := List.cons.inj hg
      have := congrArg List.length h1
      simp at this; omega
    | @braces ds n h2 h3 h4 =>
      obtain ⟨_, rfl⟩ := List.cons.inj hg
      rcases h2 with h2 | h2
      · cases h3 with
        | nil => exact h2 rfl
        | cons h5 _ =>
          have := congrArg List.length h1
          simp at this
      · exact h2
  · repeat first | exact .nil | refine p (by decide) (by decide) (by decide) ?_ (by decide)

end Verif.Lex
