import Verif.Lemmas.StrNumSound
/-
C82  strings as numbers and as BigInts
-/
namespace Verif.StrNum
open Json (Uni)
open Spec (White Lit IntLit Repr Modest LongExp)

/-! ## An instance: numbers as they are written -/

inductive Num
  | dec (neg : Bool) (m : Nat) (e : Int)
  | nat (n : Nat)
  | inf (neg : Bool)
  | nan
  | zero
  deriving DecidableEq

/-- m · 10^e without zeros at the end of m. -/
def norm (m : Nat) (e : Int) : Nat × Int :=
  if _h : m = 0 then (0, 0) else if m % 10 = 0 then norm (m / 10) (e + 1) else (m, e)
termination_by m
decreasing_by omega

def numDec (neg : Bool) (m : Nat) (e : Int) : Num := .dec neg (norm m e).1 (norm m e).2

def numSem : Spec.Sem Num := ⟨numDec, .nat, .inf, .nan, .zero⟩

theorem norm_zero (e : Int) : norm 0 e = (0, 0) := by rw [norm, dif_pos rfl]

theorem norm_ten (m : Nat) (e : Int) : norm (m * 10) (e - 1) = norm m e := by
  by_cases h : m = 0
  · subst h; rw [Nat.zero_mul, norm_zero, norm_zero]
  · rw [norm, dif_neg (by omega), if_pos (by omega)]
    rw [Nat.mul_div_cancel _ (by decide), show e - 1 + 1 = e by omega]

theorem numLaws : Spec.Laws numSem where
  scale := fun neg m e k => by
    show numDec neg (m * 10 ^ k) (e - k) = numDec neg m e
    have : norm (m * 10 ^ k) (e - k) = norm m e := by
      induction k with
      | zero => simp
      | succ k ih =>
        rw [← ih, Nat.pow_succ, ← Nat.mul_assoc, show e - ((k + 1 : Nat) : Int) = e - k - 1 by omega]
        exact norm_ten _ _
    unfold numDec; rw [this]
  zero := fun neg e => by
    show numDec neg 0 e = numDec neg 0 0
    have : norm 0 e = norm 0 0 := by rw [norm_zero, norm_zero]
    unfold numDec; rw [this]

def numLib : Lib Num where
  dec := numDec
  huge := fun m e => decide (309 < (m.log2 * 30103 / 100000 : Int) + e)
  ofNat := .nat
  neg := fun x => match x with
    | .dec n m e => .dec (!n) m e
    | .inf n => .inf (!n)
    | x => x
  inf := .inf false
  nan := .nan
  zero := .zero

theorem numContract : Contract numLib numSem where
  dec := fun _ _ _ => rfl
  laws := numLaws
  neg := fun _ _ => rfl
  inf := rfl
  negInf := rfl
  nat := fun _ _ => rfl
  nan := rfl
  zero := rfl

/-- White space as it is in the tables, identifiers only ASCII. -/
def uni0 : Uni where
  white := fun c => c == 0x85 || c == 0xa0 || c == 0x1680 || (0x2000 ≤ c && c ≤ 0x200a) || c == 0x2028 || c == 0x2029 ||
    c == 0x202f || c == 0x205f || c == 0x3000
  idStart := fun _ => false
  idCont := fun _ => false

theorem uni0_known : Known uni0 where
  white := fun c hc => by simp [uni0, White]; omega
  start := fun _ _ _ => rfl
  cont := fun _ _ _ => rfl

/-! ## Numbers -/

/-- Every StringNumericLiteral has its value: a decimal literal with or without sign, `Infinity`, an
integer in base 2, 8 or 16, or nothing, with white space around it.  (An integer in another base must
be a double: see `C82_rounding_violated`; an exponent must be within ±19999: see `C82_exponent_violated`.) -/
theorem C82_accepts {F : Type} (U : Uni) (L : Lib F) (S : Spec.Sem F) (T : Known U) (C : Contract L S) (s : List Nat) (x : F)
    (h : Lit S Repr Modest s x) : toNumber U L s = .val x := by
  unfold toNumber; rw [parseNumber_complete T C h]

-- " \t-12.5e+3 "
example : toNumber uni0 numLib [32, 9, 45, 49, 50, 46, 53, 101, 43, 51, 0x2029] = .val (.dec true 125 2) ∧
    Lit numSem Repr Modest [32, 9, 45, 49, 50, 46, 53, 101, 43, 51, 0x2029] (.dec true 125 2) := by
  have e : numSem.dec true 125 2 = .dec true 125 2 := by decide +kernel
  refine ⟨by decide +kernel, [32, 9], [45] ++ ([49, 50] ++ 46 :: ([53] ++ [101, 43, 51])), [0x2029], rfl, ?_, ?_, ?_⟩
  · intro c hc; simp at hc; unfold White; omega
  · intro c hc; simp at hc; subst hc; unfold White; omega
  · rw [← e]
    exact Spec.Body.dec (S := numSem) (x := 3) (n := 1) .minus
      (.point (by decide) (fun c hc => isDig10.2 (by simp at hc; rcases hc with rfl | rfl <;> rfl))
      (fun c hc => isDig10.2 (by simp at hc; subst hc; rfl))
      (.plus (.inl rfl) (by decide) (fun c hc => isDig10.2 (by simp at hc; subst hc; rfl)))) ⟨by decide, by decide⟩

/-- Nothing else is a number, as long as the string has none of five things: a comment, a backslash, a
character U+0085, white space behind a sign, an exponent with ten digits or more. -/
theorem C82_partial {F : Type} (U : Uni) (L : Lib F) (S : Spec.Sem F) (T : Known U) (C : Contract L S) (s : List Nat)
    (h1 : Spec.NoComment s) (h2 : 92 ∉ s) (h3 : 0x85 ∉ s) (h4 : Spec.SignClose s) (h5 : ¬ LongExp s)
    (h : ¬ ∃ x, Lit S (fun _ => True) (fun _ => True) s x) : toNumber U L s = .val S.nan := by
  have hc : Clean s := ⟨h1, h2, h3, h4⟩
  have key : parseNumber U L s = .no := by
    cases hp : parseNumber U L s with
    | no => rfl
    | val x => exact absurd (parseNumber_sound S T hc hp) h
    | undef => exact ((parseNumber_okay U L s).2 hp).elim (fun h => absurd h h2) (fun h => absurd h.2 h5)
    | fuel => exact absurd hp (parseNumber_okay U L s).1
  unfold toNumber
  rw [key, C.nan]

-- "1_0", "0x", "1e", "--1", "1 2", "0b2", "-0x1", "1n", ".", "infinity"
example : ([[49, 95, 48], [48, 120], [49, 101], [45, 45, 49], [49, 32, 50], [48, 98, 50], [45, 48, 120, 49], [49, 110], [46],
    [105, 110, 102, 105, 110, 105, 116, 121]].map (toNumber uni0 numLib)).all (· == .val .nan) = true := by decide +kernel

/-- The conversion ends, and is defined unless there is a backslash or (numbers) an exponent with ten digits
or more. -/
theorem C82_total {F : Type} (U : Uni) (L : Lib F) (s : List Nat) :
    toNumber U L s ≠ .fuel ∧ (toNumber U L s = .undef → 92 ∈ s ∨ LongExp s) ∧ toNumber U L s ≠ .no ∧
    toBigInt U s ≠ .fuel ∧ (toBigInt U s = .undef → 92 ∈ s) := by
  obtain ⟨h1, h2⟩ := parseNumber_okay U L s
  obtain ⟨h3, h4⟩ := toBigInt_okay U s
  refine ⟨?_, ?_, ?_, h3, fun h => (h4 h).elim id (fun h => by cases h.1)⟩
  · unfold toNumber
    split
    · simp
    · exact h1
  · unfold toNumber
    split
    · simp
    · exact fun h => (h2 h).elim .inl (fun h => .inr h.2)
  · unfold toNumber
    split
    · simp
    · assumption

/-! ## BigInts -/

/-- Every StringIntegerLiteral has its value, of any size. -/
theorem C82_bigint (U : Uni) (T : Known U) (s : List Nat) (x : Int) (h : IntLit s x) : toBigInt U s = .val x :=
  toBigInt_complete T h

/-- Nothing else is a BigInt, with the same exceptions. -/
theorem C82_bigint_partial (U : Uni) (T : Known U) (s : List Nat)
    (h1 : Spec.NoComment s) (h2 : 92 ∉ s) (h3 : 0x85 ∉ s) (h4 : Spec.SignClose s)
    (h : ¬ ∃ x, IntLit s x) : toBigInt U s = .no := by
  cases hp : toBigInt U s with
  | no => rfl
  | val x => exact absurd (toBigInt_sound T ⟨h1, h2, h3, h4⟩ hp) h
  | undef => exact ((toBigInt_okay U s).2 hp).elim (fun h => absurd h h2) (fun h => by cases h.1)
  | fuel => exact absurd hp (toBigInt_okay U s).1

-- " -18446744073709551616 ", "0XfFfFfFfFfFfFfFfFf", "", "1.5", ".5", "1e3", "1n"
example : toBigInt uni0 [32, 45, 49, 56, 52, 52, 54, 55, 52, 52, 48, 55, 51, 55, 48, 57, 53, 53, 49, 54, 49, 54, 32] =
    .val (-18446744073709551616) := by decide
example : toBigInt uni0 [48, 88, 102, 70, 102, 70, 102, 70, 102, 70, 102, 70, 102, 70, 102, 70, 102, 70, 102] =
    .val (2 ^ 68 - 1) := by decide +kernel
example : toBigInt uni0 [] = .val 0 ∧ toBigInt uni0 [49, 46, 53] = .no ∧ toBigInt uni0 [46, 53] = .no ∧
    toBigInt uni0 [49, 101, 51] = .no ∧ toBigInt uni0 [49, 110] = .no := by decide

/-! ## What is accepted and should not be -/

/-- In the standard none of these strings is a number.  `Number("/**/1")`, `Number("1//")`,
`Number("+ 1")` are 1, `Number("\\u0049nfinity")` is Infinity, `Number("\u0085")` is 0. -/
theorem C82_violated {F : Type} (U : Uni) (L : Lib F) (S : Spec.Sem F) (E : Nat → Prop) (X : Int → Prop) (T : Known U) :
    (toNumber U L [47, 42, 42, 47, 49] = .val (L.dec false 1 0) ∧ ∀ x, ¬ Lit S E X [47, 42, 42, 47, 49] x) ∧
    (toNumber U L [49, 47, 47] = .val (L.dec false 1 0) ∧ ∀ x, ¬ Lit S E X [49, 47, 47] x) ∧
    (toNumber U L [43, 32, 49] = .val (L.dec false 1 0) ∧ ∀ x, ¬ Lit S E X [43, 32, 49] x) ∧
    (toNumber U L [92, 117, 48, 48, 52, 57, 110, 102, 105, 110, 105, 116, 121] = .val L.inf ∧
      ∀ x, ¬ Lit S E X [92, 117, 48, 48, 52, 57, 110, 102, 105, 110, 105, 116, 121] x) ∧
    (toNumber U L [0x85] = .val L.zero ∧ ∀ x, ¬ Lit S E X [0x85] x) := by
  refine ⟨⟨rfl, fun x => not_lit_char (c := 47) (by decide) (.inl rfl) x⟩,
    ⟨rfl, fun x => not_lit_char (c := 47) (by decide) (.inl rfl) x⟩, ⟨rfl, fun x h => ?_⟩,
    ⟨rfl, fun x => not_lit_char (c := 92) (by decide) (.inr (.inl rfl)) x⟩,
    ⟨?_, fun x => not_lit_char (c := 0x85) (by decide) (.inr (.inr rfl)) x⟩⟩
  · obtain ⟨w, b, w', e, hw, hw', hb⟩ := h
    have hp := body_plain hb
    have n43 : ¬ White 43 := by unfold White; omega
    have n49 : ¬ White 49 := by unfold White; omega
    have w32 : White 32 := by unfold White; omega
    cases w with
    | cons c w =>
      rw [List.cons_append] at e
      simp only [List.cons.injEq] at e
      rw [e.1] at n43
      exact n43 (hw _ List.mem_cons_self)
    | nil =>
      rw [List.nil_append] at e
      rcases b with _ | ⟨b1, _ | ⟨b2, b⟩⟩
      · rw [List.nil_append] at e; rw [← e] at hw'; exact n43 (hw' 43 (by simp))
      · rw [List.cons_append, List.nil_append] at e
        simp only [List.cons.injEq] at e
        rw [← e.2] at hw'
        exact n49 (hw' 49 (by simp))
      · rw [List.cons_append, List.cons_append] at e
        simp only [List.cons.injEq] at e
        have := (hp b2 (by simp)).2.2.2
        rw [← e.2.1] at this
        exact this w32
  · have hw : U.isWhite 0x85 = true := by
      unfold Uni.isWhite
      rw [if_neg (by decide)]
      simp [(T.white 0x85 (by decide)).2 (.inr rfl)]
    have h1 : points [0x85] = [0x85] := rfl
    have h2 : token U false [0x85] = .ok .fin [] := by
      unfold token
      rw [skip_cons _ (by decide), if_pos hw]
      rfl
    unfold toNumber parseNumber
    rw [h1, h2]
    rfl

/-- In an escape that is too large the value -1 is shifted to the left: `Number("\\u{fffffffff}")` is not
defined.  In the standard it is NaN. -/
theorem C82_undef_violated {F : Type} (U : Uni) (L : Lib F) :
    toNumber U L [92, 117, 123, 102, 102, 102, 102, 102, 102, 102, 102, 102, 125] = .undef := by rfl

/-- The exponent is read into an `int`: `Number("1e2147483600")` overflows it (`10*L + c` is 2147483648).  In the
standard the number is Infinity. -/
theorem C82_overflow_violated {F : Type} (U : Uni) (L : Lib F) (S : Spec.Sem F) :
    toNumber U L [49, 101, 50, 49, 52, 55, 52, 56, 51, 54, 48, 48] = .undef ∧
    Lit S Repr (fun _ => True) [49, 101, 50, 49, 52, 55, 52, 56, 51, 54, 48, 48] (S.dec false 1 2147483600) := by
  refine ⟨rfl, [], [] ++ ([49] ++ [101, 50, 49, 52, 55, 52, 56, 51, 54, 48, 48]), [], rfl, (fun c hc => by cases hc),
    (fun c hc => by cases hc), ?_⟩
  have hd : ∀ l : List Nat, l.all Json.isDigit = true → Spec.Digits 10 l :=
    fun l h c hc => isDig10.2 (List.all_eq_true.1 h c hc)
  exact Spec.Body.dec (x := 2147483600) (n := 0) .none
    (.int (by decide) (hd _ (by decide)) (.plain (.inl rfl) (by decide) (hd _ (by decide)))) trivial

/-- An exponent beyond ±19999 is taken for ±19999, whatever the digits: "0." and 19999 zeros and "1e20000" is 1, and
the code gives 10^-1. -/
theorem C82_exponent_violated {F : Type} (U : Uni) (L : Lib F) (T : Known U) :
    ∃ t : List Nat, t = [48, 46] ++ (List.replicate 19999 48 ++ [49, 101, 50, 48, 48, 48, 48]) ∧ Spec.Dec t 1 20000 20000 ∧
      toNumber U L t = .val (L.dec false 1 (-1)) := by
  have hd : ∀ l : List Nat, l.all Json.isDigit = true → Spec.Digits 10 l :=
    fun l h c hc => isDig10.2 (List.all_eq_true.1 h c hc)
  have hv : ∀ k, Spec.value 10 ([48] ++ (List.replicate k 48 ++ [49])) = 1 := fun k => by
    rw [value_ev]
    show ev 0 (List.replicate k 48 ++ [49]) = 1
    rw [ev_zeros]; rfl
  have h : Spec.Dec ([48] ++ 46 :: ((List.replicate 19999 48 ++ [49]) ++ [101, 50, 48, 48, 48, 48])) 1 20000 20000 := by
    have := Spec.Dec.point (ds := [48]) (fs := List.replicate 19999 48 ++ [49]) (es := [101, 50, 48, 48, 48, 48]) (x := 20000)
      (by decide) (hd _ (by decide)) (hd _ (by rw [List.all_append, List.all_replicate]; decide))
      (.plain (.inl rfl) (by decide) (hd _ (by decide)))
    rw [hv, List.length_append, List.length_replicate] at this
    exact this
  have e2 : ∀ z : List Nat, [48, 46] ++ (z ++ [49, 101, 50, 48, 48, 48, 48]) = [48] ++ 46 :: ((z ++ [49]) ++ [101, 50, 48, 48, 48, 48]) := by
    intro z; simp
  refine ⟨_, rfl, ?_, ?_⟩
  · rw [e2]; exact h
  · obtain ⟨m', e', h1, h2⟩ := parseNumber_dec L T h (by unfold Far; decide)
    have hc : clamp 20000 = 19999 := by decide
    rw [hc] at h2
    rcases h2 with ⟨h2, -⟩ | ⟨k, h2, h3⟩
    · cases h2
    · have hk : 10 ^ k = 1 ∧ m' = 1 := by
        have h4 := Nat.dvd_one.1 ⟨_, h2⟩
        rw [h4, Nat.one_mul] at h2
        exact ⟨h2.symm, h4⟩
      have hk0 : k = 0 := by
        cases k with
        | zero => rfl
        | succ k => have := hk.1; rw [Nat.pow_succ] at this; omega
      subst hk0
      have he : e' = -1 := by omega
      rw [hk.2, he] at h1
      unfold toNumber
      rw [e2, h1]

/-- Bases 2, 8 and 16 are rounded at every digit: 0x200000000000011 = 2^57 + 17 becomes 2^57, though
2^57 + 32 is a double that is nearer. -/
theorem C82_rounding_violated {F : Type} (U : Uni) (L : Lib F) :
    toNumber U L ([48, 120, 50] ++ List.replicate 12 48 ++ [49, 49]) = .val (L.ofNat (2 ^ 57)) ∧
    Spec.value 16 ([50] ++ List.replicate 12 48 ++ [49, 49]) = 2 ^ 57 + 17 ∧
    Repr (2 ^ 57 + 32) ∧ (2 ^ 57 + 32 : Int) - (2 ^ 57 + 17) < (2 ^ 57 + 17) - 2 ^ 57 := by
  refine ⟨?_, by decide, ⟨2 ^ 52 + 1, 5, by decide, by decide⟩, by decide⟩
  have : acc 16 ([50] ++ List.replicate 12 48 ++ [49, 49]) = 2 ^ 57 := by decide +kernel
  rw [← this]
  rfl

end Verif.StrNum
