import Verif.Lemmas.NumText3

/-!
C92: `toFixed`, `toExponential`, `toPrecision` and `toString` with a radix write the number the standard
asks for.
-/
namespace Verif.NumText
open Spec
open NumStr.Spec (val chars)

/-! ### toFixed -/

/-- Every number below 10^21 is written with the digits asked for, and no number with so many digits is
closer; in the middle between two the even one is written. -/
theorem C92_fixed_near (L : Lang) (neg : Bool) (p q f : Nat) (hq : 0 < q) (hr : p < q * 10 ^ 21) (hf : f ≤ 100) :
    ∃ n t, toFixed L (some (.fin neg p q)) (.int f) = .text (signed neg t) ∧ FixedText f n t ∧
      NearFixed ((p : ℚ) / q) f n ∧ (¬ FixedTie ((p : ℚ) / q) f → Nearest ((p : ℚ) / q) f n) ∧
      ∀ N : Nat, (p : ℚ) / q = ((N : ℚ) + 1 / 2) / 10 ^ f → n = if N % 2 = 0 then N else N + 1 := by
  have hcall : toFixed L (some (.fin neg p q)) (.int f) = out neg (fixedBody f (dtoa3 p q f).1 (dtoa3 p q f).2) := by
    unfold toFixed
    simp only
    rw [if_neg (by omega), if_neg (by omega)]
    simp
  refine ⟨even (p * 10 ^ f) q, ?_⟩
  obtain ⟨v1, v2⟩ := even_fixed p q f hq
  suffices H : ∃ t, fixedBody f (dtoa3 p q f).1 (dtoa3 p q f).2 = some t ∧ FixedText f (even (p * 10 ^ f) q) t ∧ t.length ≤ f + 24 by
    obtain ⟨t, t1, t2, t3⟩ := H
    exact ⟨t, by rw [hcall, t1, out_text _ _ (by omega)], t2, v1, v2, fun N => even_fixed_tie p q f N hq⟩
  by_cases hp : p = 0
  · subst hp
    have hd : dtoa3 0 q f = ([0], 1) := by simp [dtoa3]
    rw [hd]
    obtain ⟨t, t1, t2, t3⟩ := fixedBody_spec (f := f) (R := 0) (ds := [0]) (nv := 1) (by simp)
      (Or.inr ⟨Or.inr ⟨rfl, rfl⟩, by simp, by simp [val]⟩)
    refine ⟨t, t1, ?_, t3 (by omega)⟩
    have : even (0 * 10 ^ f) q = 0 := by
      unfold even
      rw [Nat.zero_mul, Nat.zero_mod, Nat.zero_div, if_neg (by omega)]
    rwa [this]
  · obtain ⟨ds, nv, e1, e2, e3, e4⟩ := dtoa3_spec p q f (Nat.pos_of_ne_zero hp) hq
    rw [e1]
    obtain ⟨t, t1, t2, t3⟩ := fixedBody_spec (f := f) (R := even (p * 10 ^ f) q) (nv := nv) e2 (by
      rcases e3 with e3 | e3
      · exact Or.inl e3
      · exact Or.inr ⟨Or.inl e3.1, e3.2⟩)
    exact ⟨t, t1, t2, t3 (e4 hr)⟩

/-- The full claim, without ties and without -0. -/
theorem C92_fixed_partial (L : Lang) (neg : Bool) (p q f : Nat) (hq : 0 < q) (hr : p < q * 10 ^ 21) (hf : f ≤ 100)
    (ht : ¬ FixedTie ((p : ℚ) / q) f) (h0 : ¬ (neg = true ∧ p = 0)) :
    ∃ n t, toFixed L (some (.fin neg p q)) (.int f) = .text (signed (neg && p ≠ 0) t) ∧
      Nearest ((p : ℚ) / q) f n ∧ FixedText f n t := by
  obtain ⟨n, t, h1, h2, h3, h4, -⟩ := C92_fixed_near L neg p q f hq hr hf
  refine ⟨n, t, ?_, h4 ht, h2⟩
  rw [h1]
  congr 2
  cases neg
  · rfl
  · simp only [true_and] at h0
    simp [h0]

/-- No argument is the argument 0. -/
theorem C92_fixed_default (L : Lang) (this : Option Num) : toFixed L this .undef = toFixed L this (.int 0) := by
  cases this <;> rfl

private def L0 : Lang := { dec := fun _ => [], short := fun _ _ => ([1], 1) }

/-- 2.5.toFixed(0) is "2": of the two closest numbers the standard wants the larger, 3. -/
theorem C92_half_violated : ¬ ∀ (L : Lang) (p q f : Nat), 0 < q → p < q * 10 ^ 21 → f ≤ 100 →
    ∃ n t, toFixed L (some (.fin false p q)) (.int f) = .text t ∧ Nearest ((p : ℚ) / q) f n ∧ FixedText f n t := by
  intro H
  obtain ⟨n, t, h1, ⟨-, h2⟩, i, fr, h3, h4, h5, h6, h7, h8⟩ := H L0 5 2 0 (by omega) (by omega) (by omega)
  have e : toFixed L0 (some (.fin false 5 2)) (.int (0 : Nat)) = .text [50] := by decide
  rw [e] at h1
  simp only [Res.text.injEq] at h1
  subst h1
  have hi : i = [2] ∧ fr = [] := by
    have : fr = [] := List.length_eq_zero_iff.1 h6
    subst this
    simp only [if_true, List.append_nil, chars] at h8
    cases i with
    | nil => exact absurd rfl h4
    | cons a i =>
      simp only [List.map_cons, List.cons.injEq] at h8
      obtain ⟨h8, h9⟩ := h8
      have : i = [] := by simpa using h9.symm
      subst this
      exact ⟨by rw [show a = 2 by omega], rfl⟩
  obtain ⟨rfl, rfl⟩ := hi
  have hn : n = 2 := by rw [← h7]; decide
  subst hn
  have := h2 3 (by norm_num)
  omega

/-- (-0).toFixed(0) is "-0"; the standard writes a sign only for numbers less than 0. -/
theorem C92_negative_zero_violated (L : Lang) : toFixed L (some (.fin true 0 1)) (.int 0) = .text [45, 48] := rfl

-- (1.255).toFixed(2) for the double next to 1.255, which is below it: "1.25"; (-1.5e-10).toFixed(2): "-0.00";
-- (123.456).toFixed(1): "123.5"; (10.235).toFixed(5): zeros are added.
example : toFixed L0 (some (.fin false 1254999999 1000000000)) (.int 2) = .text ("1.25".toList.map Char.toNat) ∧
    toFixed L0 (some (.fin true 15 100000000000)) (.int 2) = .text ("-0.00".toList.map Char.toNat) ∧
    toFixed L0 (some (.fin false 123456 1000)) (.int 1) = .text ("123.5".toList.map Char.toNat) ∧
    toFixed L0 (some (.fin false 10235 1000)) (.int 5) = .text ("10.23500".toList.map Char.toNat) ∧
    toFixed L0 (some (.fin false 99996 100000)) (.int 3) = .text ("1.000".toList.map Char.toNat) ∧
    ¬ FixedTie (((99996 : Nat) : ℚ) / (100000 : Nat)) 3 := by
  refine ⟨by decide +kernel, by decide +kernel, by decide +kernel, by decide +kernel, by decide +kernel, ?_⟩
  rintro ⟨n, h⟩
  have h2 : (2 * n + 1 : ℚ) * 100 = 199992 := by
    rw [eq_div_iff (by norm_num)] at h
    norm_num at h
    linarith
  have h3 : (2 * n + 1) * 100 = 199992 := by exact_mod_cast h2
  omega

/-! ### toExponential -/

/-- Every number is written with the digits asked for; no number with so many digits is closer, and
without a tie it is the one the standard wants. -/
theorem C92_exponential_partial (L : Lang) (neg : Bool) (p q f : Nat) (hp : 0 < p) (hq : 0 < q)
    (r1 : q ≤ p * 10 ^ 400) (r2 : p < q * 10 ^ 400) (hf : f ≤ 100) :
    ∃ n e ds t, toExponential L (some (.fin neg p q)) (.int f) = .text (signed neg t) ∧ DigitsOf f n ds ∧ ExpText ds e t ∧
      Near ((p : ℚ) / q) f n e ∧ (¬ Tie ((p : ℚ) / q) f → Closest ((p : ℚ) / q) f n e) := by
  obtain ⟨ds, nv, e1, e2, ⟨x, e3, -⟩, e4, e5, e6, e7⟩ := dtoa2_spec p q f hp hq
  obtain ⟨t, t1, t2, t3⟩ := expBody_spec (nv := nv) (f := f) (ds := ds) (by intro hc; rw [hc] at e3; cases e3) e4
  obtain ⟨b1, b2⟩ := e7 r1 r2
  refine ⟨_, nv - 1, full f ds, t, ?_, full_digits e2 e4, t2, e5, e6⟩
  have hcall : toExponential L (some (.fin neg p q)) (.int f) = out neg (expBody f (dtoa2 p q (f + 1)).1 (dtoa2 p q (f + 1)).2) := by
    unfold toExponential
    simp only
    rw [if_neg (by omega)]
    simp [Nat.ne_of_gt hp]
  rw [hcall, e1]
  simp only
  rw [t1, out_text _ _ (by have := t3 b1 b2; omega)]

/-- Zero, with or without sign: f + 1 zeros and the exponent 0. -/
theorem C92_exponential_zero (L : Lang) (neg : Bool) (q f : Nat) (hf : f ≤ 100) :
    ∃ t, toExponential L (some (.fin neg 0 q)) (.int f) = .text t ∧ ExpText (List.replicate (f + 1) 0) 0 t := by
  obtain ⟨t, t1, t2, t3⟩ := expBody_spec (nv := 1) (f := f) (ds := [0]) (by simp) (by simp)
  refine ⟨t, ?_, ?_⟩
  · have hcall : toExponential L (some (.fin neg 0 q)) (.int f) = out false (expBody f [0] 1) := by
      unfold toExponential
      simp only
      rw [if_neg (by omega)]
      simp [dtoa2]
    rw [hcall, t1, out_text _ _ (by have := t3 (by omega) (by omega); omega)]
    rfl
  · have : full f [0] = List.replicate (f + 1) 0 := by simp [full, List.replicate_succ]
    rw [this] at t2
    exact t2

/-- Without an argument all the shortest digits are written. -/
theorem C92_exponential_shortest (L : Lang) (neg : Bool) (p q : Nat) (hp : 0 < p) (ds : List Nat) (nv : Int)
    (hs : L.short p q = (ds, nv)) (hne : ds ≠ []) (hl : ds.length ≤ 17) (h1 : -400 ≤ nv) (h2 : nv ≤ 400) :
    ∃ t, toExponential L (some (.fin neg p q)) .undef = .text (signed neg t) ∧ ExpText ds (nv - 1) t := by
  have hpos := List.length_pos_iff.2 hne
  obtain ⟨t, t1, t2, t3⟩ := expBody_spec (nv := nv) (f := ds.length - 1) (ds := ds) hne (by omega)
  have hfull : full (ds.length - 1) ds = ds := by
    simp [full, show ds.length - 1 + 1 - ds.length = 0 by omega]
  rw [hfull] at t2
  refine ⟨t, ?_, t2⟩
  have hcall : toExponential L (some (.fin neg p q)) .undef = out neg (expBody ((ds.length : Int) - 1) ds nv) := by
    unfold toExponential
    simp only
    rw [if_neg (Nat.ne_of_gt hp), hs]
    simp [Nat.ne_of_gt hp]
  rw [hcall, show ((ds.length : Int) - 1) = ((ds.length - 1 : Nat) : Int) by omega, t1,
    out_text _ _ (by have := t3 h1 (by omega); omega)]

/-- 2.5.toExponential(0) is "2e+0"; the standard wants "3e+0". -/
theorem C92_half_exponential_violated (L : Lang) :
    toExponential L (some (.fin false 5 2)) (.int 0) = .text ("2e+0".toList.map Char.toNat) ∧ ¬ Closest (5 / 2) 0 2 0 ∧
      Near (5 / 2) 0 3 0 := by
  refine ⟨by rfl, ?_, by omega, by omega, ?_⟩
  · rintro ⟨-, h⟩
    have := h 3 0 (by omega) (by omega) (by norm_num)
    norm_num at this
  · intro m d h1 h2
    obtain ⟨-, -, h⟩ := (digits_closest 5 2 0 0 2 0 (by omega) (by omega) (by omega) (by omega) (by omega) (by
      have : even (5 * 10 ^ 0) 2 = 2 := by decide
      rw [this])).1
    have := h m d h1 h2
    norm_num at this ⊢
    refine le_trans ?_ this
    norm_num

-- 123456 with three digits is 1.23e+5, 99999 rounds up to 1.0e+5, 0.00015 is 1.5e-4.
example : toExponential L0 (some (.fin true 123456 1)) (.int 2) = .text ("-1.23e+5".toList.map Char.toNat) ∧
    toExponential L0 (some (.fin false 99999 1)) (.int 1) = .text ("1.0e+5".toList.map Char.toNat) ∧
    toExponential L0 (some (.fin false 15 100000)) (.int 3) = .text ("1.500e-4".toList.map Char.toNat) := by
  refine ⟨by decide +kernel, by decide +kernel, by decide +kernel⟩

/-! ### toPrecision -/

/-- The same for `toPrecision`: the closest number with so many digits, laid out by its exponent. -/
theorem C92_precision_partial (L : Lang) (neg : Bool) (p q f : Nat) (hp : 0 < p) (hq : 0 < q)
    (r1 : q ≤ p * 10 ^ 400) (r2 : p < q * 10 ^ 400) (hf : f < 100) :
    ∃ n e ds t, toPrecision L (some (.fin neg p q)) (.int (f + 1 : Nat)) = .text (signed neg t) ∧ DigitsOf f n ds ∧
      PrecText ds e t ∧ Near ((p : ℚ) / q) f n e ∧ (¬ Tie ((p : ℚ) / q) f → Closest ((p : ℚ) / q) f n e) := by
  obtain ⟨ds, nv, e1, e2, ⟨x, e3, -⟩, e4, e5, e6, e7⟩ := dtoa2_spec p q f hp hq
  obtain ⟨t, t1, t2, t3⟩ := precBody_spec (nv := nv) (f := f) (ds := ds) (by intro hc; rw [hc] at e3; cases e3) e4
  obtain ⟨b1, b2⟩ := e7 r1 r2
  refine ⟨_, nv - 1, full f ds, t, ?_, full_digits e2 e4, t2, e5, e6⟩
  have hcall : toPrecision L (some (.fin neg p q)) (.int (f + 1 : Nat)) =
      out neg (precBody (f + 1) (dtoa2 p q (f + 1)).1 (dtoa2 p q (f + 1)).2) := by
    unfold toPrecision
    simp only
    rw [if_neg (by omega)]
    simp [Nat.ne_of_gt hp]
  rw [hcall, e1]
  simp only
  rw [t1, out_text _ _ (by have := t3 b1 b2; omega)]

theorem C92_precision_zero (L : Lang) (neg : Bool) (q f : Nat) (hf : f < 100) :
    ∃ t, toPrecision L (some (.fin neg 0 q)) (.int (f + 1 : Nat)) = .text t ∧ PrecText (List.replicate (f + 1) 0) 0 t := by
  obtain ⟨t, t1, t2, t3⟩ := precBody_spec (nv := 1) (f := f) (ds := [0]) (by simp) (by simp)
  refine ⟨t, ?_, ?_⟩
  · have hcall : toPrecision L (some (.fin neg 0 q)) (.int (f + 1 : Nat)) = out false (precBody (f + 1) [0] 1) := by
      unfold toPrecision
      simp only
      rw [if_neg (by omega)]
      simp [dtoa2]
    rw [hcall, t1, out_text _ _ (by have := t3 (by omega) (by omega); omega)]
    rfl
  · have : full f [0] = List.replicate (f + 1) 0 := by simp [full, List.replicate_succ]
    rw [this] at t2
    exact t2

/-- 25 with one digit is "2e+1"; the standard wants "3e+1". -/
theorem C92_half_precision_violated (L : Lang) :
    toPrecision L (some (.fin false 25 1)) (.int 1) = .text ("2e+1".toList.map Char.toNat) ∧ ¬ Closest 25 0 2 1 := by
  refine ⟨by rfl, ?_⟩
  rintro ⟨-, h⟩
  have := h 3 1 (by omega) (by omega) (by norm_num)
  norm_num at this

-- 123.456 with 4, 2 and 8 digits, 0.00001234 with 3, 1234 with 4.
example : toPrecision L0 (some (.fin false 123456 1000)) (.int 4) = .text ("123.5".toList.map Char.toNat) ∧
    toPrecision L0 (some (.fin false 123456 1000)) (.int 2) = .text ("1.2e+2".toList.map Char.toNat) ∧
    toPrecision L0 (some (.fin true 123456 1000)) (.int 8) = .text ("-123.45600".toList.map Char.toNat) ∧
    toPrecision L0 (some (.fin false 1234 100000000)) (.int 3) = .text ("0.0000123".toList.map Char.toNat) ∧
    toPrecision L0 (some (.fin false 1234 1)) (.int 4) = .text ("1234".toList.map Char.toNat) := by
  refine ⟨by decide +kernel, by decide +kernel, by decide +kernel, by decide +kernel, by decide +kernel⟩

/-! ### toString with a radix -/

/-- Integers which fit into 63 bits are written in the radix. -/
theorem C92_radix_partial (L : Lang) (neg : Bool) (n q r : Nat) (hq : 0 < q) (hn : n < 2 ^ 63) (h2 : 2 ≤ r) (h36 : r ≤ 36)
    (h10 : r ≠ 10) :
    ∃ t, toStringR L (some (.fin neg (n * q) q)) (.int r) = .text (signed (neg && n ≠ 0) t) ∧ RadixText r n t := by
  obtain ⟨s, s1, s2⟩ := radixLoop_spec r h2 h36 (n + 1) n [] (by omega)
  rw [List.append_nil] at s2
  refine ⟨s, ?_, s1⟩
  have hlen : s.length ≤ 63 := by
    rcases radixText_length h2 s1 with h | ⟨h, h'⟩
    · omega
    · refine Classical.byContradiction fun hc => ?_
      have : 2 ^ 63 ≤ 2 ^ (s.length - 1) := Nat.pow_le_pow_right (by omega) (by omega)
      omega
  unfold toStringR
  simp only
  rw [if_neg (by omega), if_neg (by omega), Nat.mul_div_cancel _ hq]
  rw [if_neg (by cases neg <;> simp <;> omega), if_pos rfl, if_neg (by omega), Int.toNat_natCast, s2]
  have : (if neg = true ∧ n ≠ 0 then [45] else []) = (if (neg && decide (n ≠ 0)) = true then [45] else []) := by
    cases neg <;> simp
  rw [this]
  rw [if_pos (by
    have : (if (neg && decide (n ≠ 0)) = true then [45] else []).length ≤ 1 := by split <;> simp
    rw [List.length_append]; omega)]
  rfl

/-- 0.5.toString(2): the text is the decimal one, whatever the radix. -/
theorem C92_radix_violated (L : Lang) (r : Nat) (h2 : 2 ≤ r) (h36 : r ≤ 36) :
    toStringR L (some (.fin false 1 2)) (.int r) = .text (L.dec (.fin false 1 2)) := by
  unfold toStringR
  simp only
  rw [if_neg (by omega)]
  by_cases h : (r : Int) = 10
  · rw [if_pos h]
  · rw [if_neg h, if_neg (by simp), if_neg (by simp)]

/-- 2^63, infinities and NaN are converted to `int64_t`, which is undefined. -/
theorem C92_cast_violated (L : Lang) :
    toStringR L (some (.fin false (2 ^ 63) 1)) (.int 2) = .castUb ∧ toStringR L (some .nan) (.int 2) = .castUb ∧
    toStringR L (some (.fin true (2 ^ 63) 1)) (.int 16) = .castUb := ⟨rfl, rfl, rfl⟩

example : toStringR L0 (some (.fin true 255 1)) (.int 16) = .text ("-ff".toList.map Char.toNat) ∧
    toStringR L0 (some (.fin false 35 1)) (.int 36) = .text ("z".toList.map Char.toNat) ∧
    toStringR L0 (some (.fin false 10 1)) (.int 2) = .text ("1010".toList.map Char.toNat) := by decide +kernel

/-! ### Errors -/

/-- Exactly the calls the standard refuses with a RangeError are refused: `toFixed` also for infinite
numbers, the other two only for finite ones. -/
theorem C92_range (L : Lang) (x : Num) (a : Arg) (ha : a ≠ .throws) :
    (toFixed L (some x) a = .rangeError ↔ (∃ b, a = .inf b) ∨ ∃ z, a = .int z ∧ (z < 0 ∨ z > 100)) ∧
    (toExponential L (some x) a = .rangeError ↔
      (∃ neg p q, x = .fin neg p q) ∧ ((∃ b, a = .inf b) ∨ ∃ z, a = .int z ∧ (z < 0 ∨ z > 100))) ∧
    (toPrecision L (some x) a = .rangeError ↔
      (∃ neg p q, x = .fin neg p q) ∧ ((∃ b, a = .inf b) ∨ ∃ z, a = .int z ∧ (z < 1 ∨ z > 100))) ∧
    (toStringR L (some x) a = .rangeError ↔ (∃ b, a = .inf b) ∨ ∃ z, a = .int z ∧ (z < 2 ∨ z > 36)) := by
  refine ⟨?_, ?_, ?_, ?_⟩
  · cases a with
    | undef =>
      cases x with
      | fin neg p q =>
        simp only [toFixed, reduceCtorEq, exists_false, false_and, or_self, iff_false]
        rw [if_neg (by omega)]
        split
        · nofun
        · exact (out_not _ _).1
      | _ => simp [toFixed]
    | throws => exact absurd rfl ha
    | inf b => simp [toFixed]
    | int z =>
      simp only [Arg.int.injEq, reduceCtorEq, exists_false, false_or, exists_eq_left']
      by_cases hz : z < 0 ∨ z > 100
      · simp [toFixed, hz]
      · simp only [hz, iff_false]
        cases x with
        | fin neg p q =>
          simp only [toFixed]
          rw [if_neg hz]
          split
          · nofun
          · exact (out_not _ _).1
        | _ => simp [toFixed, hz]
  · cases a with
    | undef =>
      simp only [reduceCtorEq, exists_false, false_and, or_self, and_false, iff_false]
      cases x with
      | fin neg p q => exact (out_not _ _).1
      | _ => simp [toExponential]
    | throws => exact absurd rfl ha
    | inf b => cases x <;> simp [toExponential]
    | int z =>
      cases x with
      | fin neg p q =>
        by_cases hz : z < 0 ∨ z > 100
        · simp [toExponential, hz]
        · simp only [Arg.int.injEq, reduceCtorEq, exists_false, false_or, exists_eq_left', hz, and_false, iff_false, toExponential, if_false]
          exact (out_not _ _).1
      | _ => simp [toExponential]
  · cases a with
    | undef => simp [toPrecision]
    | throws => exact absurd rfl ha
    | inf b => cases x <;> simp [toPrecision]
    | int z =>
      cases x with
      | fin neg p q =>
        by_cases hz : z < 1 ∨ z > 100
        · simp [toPrecision, hz]
        · simp only [Arg.int.injEq, reduceCtorEq, exists_false, false_or, exists_eq_left', hz, and_false, iff_false, toPrecision, if_false]
          exact (out_not _ _).1
      | _ => simp [toPrecision]
  · cases a with
    | undef => simp [toStringR]
    | throws => exact absurd rfl ha
    | inf b => simp [toStringR]
    | int z =>
      simp only [Arg.int.injEq, reduceCtorEq, exists_false, false_or, exists_eq_left']
      by_cases hz : z < 2 ∨ z > 36
      · simp [toStringR, hz]
      · simp only [hz, iff_false, toStringR, if_false]
        repeat' split
        all_goals nofun

/-- Numbers that are not finite, and for `toFixed` those from 10^21 on, are written as `ToString` writes
them; so are all numbers without a precision and with the radix 10. -/
theorem C92_tostring (L : Lang) (neg : Bool) (p q f : Nat) (hf : f ≤ 100) :
    (∀ x : Num, (x = .nan ∨ x = .inf neg ∨ x = .fin neg p q ∧ q * 10 ^ 21 ≤ p) →
      toFixed L (some x) (.int f) = .text (L.dec x)) ∧
    (∀ (x : Num) (a : Arg), (x = .nan ∨ x = .inf neg) → a ≠ .throws →
      toExponential L (some x) a = .text (L.dec x) ∧ toPrecision L (some x) a = .text (L.dec x)) ∧
    (∀ x : Num, toPrecision L (some x) .undef = .text (L.dec x) ∧ toStringR L (some x) .undef = .text (L.dec x) ∧
      toStringR L (some x) (.int 10) = .text (L.dec x)) := by
  refine ⟨?_, ?_, fun x => ⟨rfl, rfl, rfl⟩⟩
  · rintro x (rfl | rfl | ⟨rfl, h⟩)
    · simp only [toFixed]; rw [if_neg (by omega)]
    · simp only [toFixed]; rw [if_neg (by omega)]
    · simp only [toFixed]; rw [if_neg (by omega), if_pos h]
  · rintro x a (rfl | rfl) ha <;> cases a <;> first | exact absurd rfl ha | exact ⟨rfl, rfl⟩

/-- What is not a number is refused before the argument is converted; an error of the conversion is
passed on. -/
theorem C92_receiver (L : Lang) (a : Arg) (x : Num) :
    toFixed L none a = .typeError ∧ toExponential L none a = .typeError ∧ toPrecision L none a = .typeError ∧
    toStringR L none a = .typeError ∧ toFixed L (some x) .throws = .thrown ∧ toExponential L (some x) .throws = .thrown ∧
    toPrecision L (some x) .throws = .thrown ∧ toStringR L (some x) .throws = .thrown :=
  ⟨rfl, rfl, rfl, rfl, rfl, rfl, rfl, rfl⟩

end Verif.NumText
