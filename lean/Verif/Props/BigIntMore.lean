import Verif.Lemmas.BigIntWF
/-
Properties C18-C21 and C56 of the big integers: string conversion, bit
operations and shifts, `asIntN`/`asUintN`, comparison and canonical form,
exponentiation.
-/
namespace Verif.BigInt

/-! ## C18 string conversion -/

theorem val_lt_two_pow {x : BI} (hx : x.WF) : val x.mag < 2 ^ (32 * x.mag.length + 1) := by
  have := val_lt hx.digits
  rw [base_pow] at this
  exact lt_of_lt_of_le this (Nat.pow_le_pow_right (by decide) (by omega))

/-- Printing is exact and canonical: the digits printed denote the magnitude, each is a
digit of the radix, the first is not zero except for the number zero, and the minus
sign is printed exactly for negative numbers. -/
theorem C18_toString {x : BI} (hx : x.WF) {radix : Nat} (h2 : 2 ≤ radix) (h36 : radix ≤ 36) :
    evalDigits radix (toDigits x radix).2 = x.toInt.natAbs ∧
    (∀ d ∈ (toDigits x radix).2, d < radix) ∧
    ((toDigits x radix).2.head? = some 0 → (toDigits x radix).2 = [0] ∧ x.toInt = 0) ∧
    (toDigits x radix).2 ≠ [] ∧
    ((toDigits x radix).1 = true ↔ x.toInt < 0) := by
  unfold toDigits
  by_cases hz : x.isZero = true
  · simp only [if_pos hz]
    rw [toInt_of_isZero hz]
    simp [evalDigits]; omega
  · simp only [if_neg hz]
    obtain ⟨h1, h3, h4, h5⟩ := toDigitsLoop_spec h2 (by unfold base; omega)
      (32 * x.mag.length + 1) x hx (val_lt_two_pow hx)
    have hp : 0 < val x.mag := val_pos hx.top (fun h => hz (by simp [BI.isZero, h]))
    have hne := h5 (by omega)
    rw [toInt_natAbs]
    refine ⟨h1, by simpa using h3, ?_, by simpa using hne, ?_⟩
    · intro hh
      exfalso
      rw [List.head?_reverse] at hh
      generalize toDigitsLoop radix (32 * x.mag.length + 1) x = l at hh h4
      clear h1 h3 h5 hne
      induction l with
      | nil => simp at hh
      | cons a t ih =>
        cases t with
        | nil => simp at hh; exact h4 hh
        | cons b t => exact ih (by simpa using hh) h4
    · cases hn : x.neg
      · rw [toInt_of_neg hn]; simp
      · rw [(neg_facts hx hn).2.2.2]; simp; omega

/-- Parsing a list of valid digits gives exactly the number they denote, in canonical
form. -/
theorem C18_parse {radix : Nat} (h36 : radix ≤ 36) (ds : List Nat)
    (hd : ∀ d ∈ ds, d < radix) :
    (fromDigits radix ds BI.zero).toInt = evalDigits radix ds ∧
      (fromDigits radix ds BI.zero).WF := by
  obtain ⟨h1, h2, h3⟩ := fromDigits_spec (radix := radix) (by unfold base; omega) ds BI.zero hd
    WF.zero rfl
  refine ⟨?_, h1⟩
  rw [toInt_of_neg h2, h3]; rfl

/-- Round trip: parsing what is printed (and applying the printed sign) gives back the
big integer, for every radix 2..36. -/
theorem C18_round_trip {x : BI} (hx : x.WF) {radix : Nat} (h2 : 2 ≤ radix) (h36 : radix ≤ 36) :
    (if (toDigits x radix).1 then (fromDigits radix (toDigits x radix).2 BI.zero).negate
      else fromDigits radix (toDigits x radix).2 BI.zero) = x := by
  obtain ⟨h1, h3, _, _, h5⟩ := C18_toString hx h2 h36
  obtain ⟨h6, h7⟩ := C18_parse h36 _ h3
  apply toInt_inj (wf_cond_negate h7) hx
  rw [toInt_cond_negate, h6, h1]
  cases hs : (toDigits x radix).1
  · have : ¬ x.toInt < 0 := fun h => by rw [h5.2 h] at hs; simp at hs
    simp; omega
  · have := h5.1 hs
    simp only [if_true]; omega

example : toDigits ⟨true, [0, 1]⟩ 10 = (true, [4, 2, 9, 4, 9, 6, 7, 2, 9, 6]) := by decide
example : fromDigits 16 [15, 0, 0, 0, 0, 0, 0, 0, 1] BI.zero = ⟨false, [1, 15]⟩ := by decide

/-! ## C19 bit operations and shifts -/

/-- `&`, `|`, `^` act bit by bit on the infinite two's complement representations, for
all big integers, and the result is canonical. -/
theorem C19_bitops {x y : BI} (hx : x.WF) (hy : y.WF) :
    (∀ i, ibit (bitOp .and x y).toInt i = (ibit x.toInt i && ibit y.toInt i)) ∧
    (∀ i, ibit (bitOp .or x y).toInt i = (ibit x.toInt i || ibit y.toInt i)) ∧
    (∀ i, ibit (bitOp .xor x y).toInt i = (ibit x.toInt i ^^ ibit y.toInt i)) ∧
    (bitOp .and x y).WF ∧ (bitOp .or x y).WF ∧ (bitOp .xor x y).WF :=
  ⟨(bitOp_spec .and hx hy).2, (bitOp_spec .or hx hy).2, (bitOp_spec .xor hx hy).2,
    (bitOp_spec .and hx hy).1, (bitOp_spec .or hx hy).1, (bitOp_spec .xor hx hy).1⟩

/-- Integers with the same bits are equal, so `C19_bitops` determines the results. -/
theorem C19_bits_determine {a b : Int} (h : ∀ i, ibit a i = ibit b i) : a = b := by
  have key : ∀ n : Nat, ∀ a b : Int, a.natAbs ≤ n → b.natAbs ≤ n →
      (∀ i, ibit a i = ibit b i) → a = b := by
    intro n
    induction n with
    | zero => intro a b ha hb _; omega
    | succ n ih =>
      intro a b ha hb h
      have h0 : a % 2 = b % 2 := by
        have := h 0
        simp only [ibit, pow_zero, Int.ediv_one, decide_eq_decide] at this
        omega
      have hs : ∀ (c : Int) i, ibit (c / 2) i = ibit c (i + 1) := by
        intro c i
        unfold ibit
        rw [Int.ediv_ediv_of_nonneg (by norm_num), pow_succ, mul_comm]
      have h1 : ∀ i, ibit (a / 2) i = ibit (b / 2) i := by
        intro i; rw [hs, hs]; exact h (i + 1)
      by_cases ha1 : a.natAbs ≤ n ∧ b.natAbs ≤ n
      · exact ih a b ha1.1 ha1.2 h
      by_cases hsm : (a / 2).natAbs ≤ n ∧ (b / 2).natAbs ≤ n
      · have := ih _ _ hsm.1 hsm.2 h1
        omega
      · -- only `-1` is not made smaller by halving
        have hn0 : n = 0 := by omega
        subst hn0
        have h2 := h 1
        simp only [ibit, decide_eq_decide] at h2
        omega
  exact key (a.natAbs + b.natAbs) a b (by omega) (by omega) h

example : (bitOp .and ⟨true, [5]⟩ ⟨false, [3, 9]⟩).toInt = 3 + 9 * 2 ^ 32 := by decide

/-- What shifting `x` left by `n` positions means (`n < 0` shifts right and rounds
down). -/
def shiftSpec (x n : Int) : Int := if 0 ≤ n then x * 2 ^ n.toNat else x / 2 ^ (-n).toNat

/-- The full claim for `<<` (`rev = false`) and `>>` (`rev = true`). -/
def ShiftExact : Prop := ∀ (x y : BI) (rev : Bool), x.WF → y.WF →
  ∃ r, shift x y rev = .ok r ∧ r.toInt = shiftSpec x.toInt (if rev then -y.toInt else y.toInt)

/-- The code violates the claim for `<<`: `-4294967295n << 1n`. -/
theorem C19_shl_violated : ∃ x y r : BI, x.WF ∧ y.WF ∧ shift x y false = .ok r ∧
    r.toInt ≠ shiftSpec x.toInt y.toInt :=
  ⟨⟨true, [4294967295]⟩, ⟨false, [1]⟩, ⟨true, [4294967294]⟩, by decide, by decide, by decide,
    by decide⟩

/-- The code violates the claim for `>>`: `-0xffffffff00000001n >> 32n`. -/
theorem C19_shr_violated : ∃ x y r : BI, x.WF ∧ y.WF ∧ shift x y true = .ok r ∧
    r.toInt ≠ shiftSpec x.toInt (-y.toInt) :=
  ⟨⟨true, [1, 4294967295]⟩, ⟨false, [32]⟩, ⟨true, [1]⟩, by decide, by decide, by decide, by decide⟩

theorem C19_shift_violated : ¬ ShiftExact := by
  intro h
  obtain ⟨x, y, r, hx, hy, h1, h2⟩ := C19_shl_violated
  obtain ⟨r', h3, h4⟩ := h x y false hx hy
  rw [h1] at h3; injection h3 with h3; subst h3
  exact h2 (by simpa using h4)

theorem length_one_of {y : BI} (hy : y.WF) (h : y.toInt.natAbs < 2 ^ 32) (h0 : y.toInt ≠ 0) :
    y.mag.length = 1 ∧ y.mag.headD 0 = y.toInt.natAbs := by
  rw [toInt_natAbs] at h ⊢
  have hl : y.mag.length ≤ 1 := length_le_of_val_lt hy.top h
  have : y.mag ≠ [] := by
    intro he; apply h0; rw [toInt_of_neg (b := y.neg) rfl, he]; simp [val]
  match hm : y.mag, this, hl with
  | [e], _, _ => simp [val]

/-- `shift` in the terms of the direction, for a non-zero count below `2^32`. -/
theorem shift_dir {x y : BI} (hy : y.WF) (rev : Bool) (hc : y.toInt.natAbs < 2 ^ 32)
    (h0 : y.toInt ≠ 0) :
    shift x y rev = .ok (if (if rev then -y.toInt else y.toInt) < 0 then shrRes x y.toInt.natAbs
      else shlRes x y.toInt.natAbs) := by
  obtain ⟨h1, h2⟩ := length_one_of hy hc h0
  rw [shift_eq _ _ _ h1, h2]
  have hp : y.neg = true ↔ y.toInt < 0 := by
    cases hn : y.neg
    · rw [toInt_of_neg hn]; simp
    · rw [(neg_facts hy hn).2.2.2]; have := (neg_facts hy hn).2.1; simp; omega
  congr 1
  cases rev
  · by_cases h : y.toInt < 0
    · simp [h, hp.2 h]
    · have : y.neg = false := by cases hn : y.neg; rfl; exact absurd (hp.1 hn) h
      simp [h, this]
  · by_cases h : y.toInt < 0
    · simp [hp.2 h]; intro; omega
    · have : y.neg = false := by cases hn : y.neg; rfl; exact absurd (hp.1 hn) h
      have hx : -y.toInt < 0 := by omega
      simp [this]; intro; omega

theorem shiftSpec_neg {x n : Int} (h : n < 0) : shiftSpec x n = x / ((2 ^ n.natAbs : Nat) : Int) := by
  unfold shiftSpec
  rw [if_neg (by omega), show (-n).toNat = n.natAbs by omega]; push_cast; rfl

theorem shiftSpec_pos {x n : Int} (h : 0 ≤ n) : shiftSpec x n = x * ((2 ^ n.natAbs : Nat) : Int) := by
  unfold shiftSpec
  rw [if_pos h, show n.toNat = n.natAbs by omega]; push_cast; rfl

/-- Shifts are exact for every non-negative big integer and for `-2^31 ≤ x` (to the right
also for `-2^32 < x`), and any shift count below `2^32`.  Missing from the full claim:
more negative numbers (`C19_shr_exact_iff`, `C19_shl_exact_iff` say exactly which are
shifted wrongly), and counts of `2^32` and more (`C19_shift_large`). -/
theorem C19_shift_partial {x y : BI} (hx : x.WF) (hy : y.WF) (rev : Bool)
    (hc : y.toInt.natAbs < 2 ^ 32)
    (h : -2 ^ 31 ≤ x.toInt ∨ (-2 ^ 32 < x.toInt ∧ (if rev then -y.toInt else y.toInt) < 0)) :
    ∃ r, shift x y rev = .ok r ∧ r.WF ∧
      r.toInt = shiftSpec x.toInt (if rev then -y.toInt else y.toInt) := by
  by_cases h0 : y.toInt = 0
  · refine ⟨x, ?_, hx, ?_⟩
    · unfold shift; rw [if_pos ((isZero_iff hy).2 h0)]
    · rw [h0]; simp [shiftSpec]
  rw [shift_dir hy rev hc h0]
  refine ⟨_, rfl, ?_⟩
  generalize hn : (if rev = true then -y.toInt else y.toInt) = n at h
  have hna : y.toInt.natAbs = n.natAbs := by rw [← hn]; split <;> omega
  rw [hna]
  have hn0 : n.natAbs ≠ 0 := by rw [← hna]; omega
  by_cases hneg : x.neg = true
  · obtain ⟨hne, hp, hlt, hi⟩ := neg_facts hx hneg
    have hl1 : x.mag.length = 1 := by
      have : x.mag.length ≤ 1 := length_le_of_val_lt hx.top (by unfold base; omega)
      have := List.length_pos_iff.2 hne
      omega
    have hva : val x.mag < 2 ^ 32 := by rw [hl1] at hlt; unfold base at hlt; omega
    split
    · rename_i hd
      refine ⟨shrRes_wf hx _, ?_⟩
      rw [shiftSpec_neg hd, shrRes_neg hx hneg, hl1]
      by_cases hk : 1 ≤ n.natAbs / 32
      · exact Or.inl hk
      · right
        have hk0 : n.natAbs / 32 = 0 := by omega
        rw [hk0]
        have h2 : (1 : Int) ≤ ((2 ^ n.natAbs : Nat) : Int) := by exact_mod_cast Nat.one_le_two_pow
        have := Int.le_ediv_of_mul_le (a := -(2 ^ 32 - 1)) (b := x.toInt)
          (c := ((2 ^ n.natAbs : Nat) : Int)) (by omega) (by rw [hi]; nlinarith)
        simp only [Nat.sub_zero, Nat.sub_self, pow_zero, pow_one, Nat.cast_one]; unfold base; omega
    · rename_i hd
      refine ⟨shlRes_wf hx _, ?_⟩
      rw [shiftSpec_pos (by omega), shlRes_neg hx hneg, hl1]
      split
      · unfold base; omega
      · rename_i hb
        have h2 : 2 ^ 1 ≤ 2 ^ (n.natAbs % 32) := Nat.pow_le_pow_right (by decide) (by omega)
        have hv : val x.mag ≤ 2 ^ 31 := by omega
        have : 2 ^ 31 ≤ base ^ 1 - val x.mag := by unfold base; omega
        calc base ^ 1 = 2 ^ 31 * 2 ^ 1 := by decide
          _ ≤ _ := Nat.mul_le_mul this h2
  · have hneg' : x.neg = false := by simpa using hneg
    split
    · rename_i hd
      exact ⟨shrRes_wf hx _, by rw [shiftSpec_neg hd, shrRes_nonneg hx hneg']⟩
    · exact ⟨shlRes_wf hx _, by rw [shiftSpec_pos (by omega), shlRes_nonneg hx hneg']⟩

/-- Exactly when a right shift of a negative number is right: with `L` the number of its
limbs, the two's complement result must not have a zero top limb. -/
theorem C19_shr_exact_iff {x y : BI} (hx : x.WF) (hy : y.WF) (hneg : x.toInt < 0)
    (hc : y.toInt.natAbs < 2 ^ 32) (h0 : 0 < y.toInt) :
    (∃ r, shift x y true = .ok r ∧ r.toInt = shiftSpec x.toInt (-y.toInt)) ↔
      (32 * x.mag.length ≤ y.toInt.natAbs ∨
        2 ^ (32 * (x.mag.length - y.toInt.natAbs / 32 - 1)) ≤
          shiftSpec x.toInt (-y.toInt) + 2 ^ (32 * (x.mag.length - y.toInt.natAbs / 32))) := by
  have hn : x.neg = true := by
    cases h : x.neg
    · rw [toInt_of_neg h] at hneg; simp at hneg; omega
    · rfl
  have hsh := shift_dir (x := x) hy true hc (by omega)
  rw [if_pos (by simp; omega)] at hsh
  rw [hsh]
  rw [shiftSpec_neg (by omega), show (-y.toInt).natAbs = y.toInt.natAbs by omega]
  constructor
  · rintro ⟨r, h1, h2⟩
    injection h1 with h1
    rw [← h1] at h2
    rcases (shrRes_neg hx hn _).1 h2 with h | h
    · left; omega
    · right; rw [base_pow, base_pow] at h; push_cast at h; exact_mod_cast h
  · intro h
    refine ⟨_, rfl, (shrRes_neg hx hn _).2 ?_⟩
    rcases h with h | h
    · left; omega
    · right; rw [base_pow, base_pow]; push_cast; exact_mod_cast h

/-- Exactly when a left shift of a negative number is right: with `L` the number of its
limbs, no bit may be lost from the two's complement representation. -/
theorem C19_shl_exact_iff {x y : BI} (hx : x.WF) (hy : y.WF) (hneg : x.toInt < 0)
    (hc : y.toInt.natAbs < 2 ^ 32) (h0 : 0 < y.toInt) :
    (∃ r, shift x y false = .ok r ∧ r.toInt = shiftSpec x.toInt y.toInt) ↔
      (if y.toInt.natAbs % 32 = 0 then
        x.toInt.natAbs + 2 ^ (32 * (x.mag.length - 1)) ≤ 2 ^ (32 * x.mag.length)
      else
        2 ^ (32 * x.mag.length) ≤
          (2 ^ (32 * x.mag.length) - x.toInt.natAbs) * 2 ^ (y.toInt.natAbs % 32)) := by
  have hn : x.neg = true := by
    cases h : x.neg
    · rw [toInt_of_neg h] at hneg; simp at hneg; omega
    · rfl
  have hsh := shift_dir (x := x) hy false hc (by omega)
  rw [if_neg (by simp; omega)] at hsh
  rw [hsh, shiftSpec_pos (by omega)]
  have hiff := shlRes_neg hx hn y.toInt.natAbs
  rw [base_pow, base_pow, ← toInt_natAbs x] at hiff
  rw [← hiff]
  constructor
  · rintro ⟨r, h1, h2⟩
    injection h1 with h1
    rw [h1]; exact h2
  · intro h
    exact ⟨_, rfl, h⟩

/-- Counts of `2^32` and more: to the left a `RangeError`; to the right `0` or `-1`,
which is exact unless the number has more than `2^32` bits. -/
theorem C19_shift_large {x y : BI} (hx : x.WF) (hy : y.WF) (rev : Bool)
    (hc : 2 ^ 32 ≤ y.toInt.natAbs) :
    (0 < (if rev then -y.toInt else y.toInt) → shift x y rev = .rangeError) ∧
    ((if rev then -y.toInt else y.toInt) < 0 → x.toInt.natAbs < 2 ^ y.toInt.natAbs →
      ∃ r, shift x y rev = .ok r ∧ r.WF ∧
        r.toInt = shiftSpec x.toInt (if rev then -y.toInt else y.toInt)) := by
  have hl : y.mag.length > 1 := by
    by_contra hcon
    rw [toInt_natAbs] at hc
    have h1 := val_lt hy.digits
    have : base ^ y.mag.length ≤ base ^ 1 := Nat.pow_le_pow_right (by decide) (by omega)
    unfold base at *; omega
  have hz : y.isZero = false := by
    have : y.mag ≠ [] := by intro h; rw [h] at hl; simp at hl
    simp [BI.isZero, this]
  have hp : y.neg = true ↔ y.toInt < 0 := by
    cases hn : y.neg
    · rw [toInt_of_neg hn]; simp
    · rw [(neg_facts hy hn).2.2.2]; have := (neg_facts hy hn).2.1; simp; omega
  have hright : (if rev then !y.neg else y.neg) = decide ((if rev then -y.toInt else y.toInt) < 0) := by
    cases rev
    · simp only [Bool.false_eq_true, if_false]
      rw [Bool.eq_iff_iff, hp]; simp
    · simp only [if_true]
      rw [Bool.eq_iff_iff, Bool.not_eq_true', ← Bool.not_eq_true, hp]; simp; omega
  have hsh : shift x y rev = if (if rev then -y.toInt else y.toInt) < 0 then
      .ok (if x.neg then ⟨true, [1]⟩ else BI.zero) else .rangeError := by
    unfold shift
    simp only [hz, hright, hl, if_true, Bool.false_eq_true, if_false, decide_eq_true_eq]
  rw [hsh]
  generalize hn : (if rev = true then -y.toInt else y.toInt) = n
  have hna : y.toInt.natAbs = n.natAbs := by rw [← hn]; split <;> omega
  rw [hna]
  refine ⟨fun h => by rw [if_neg (by omega)], fun h hb => ?_⟩
  rw [if_pos h, shiftSpec_neg h]
  have hb' : (x.toInt.natAbs : Int) < ((2 ^ n.natAbs : Nat) : Int) := by exact_mod_cast hb
  have hpos : (0 : Int) < ((2 ^ n.natAbs : Nat) : Int) := by exact_mod_cast Nat.two_pow_pos _
  cases hxn : x.neg
  · refine ⟨_, rfl, WF.zero, ?_⟩
    have hge : 0 ≤ x.toInt := by rw [toInt_of_neg hxn]; simp
    rw [Int.ediv_eq_zero_of_lt hge (by omega)]; rfl
  · refine ⟨_, rfl, by decide, ?_⟩
    have hi := (neg_facts hx hxn).2.2.2
    have hp := (neg_facts hx hxn).2.1
    have : x.toInt / ((2 ^ n.natAbs : Nat) : Int) = -1 := by
      apply Int.ediv_eq_iff_of_pos hpos |>.2
      omega
    rw [this]; rfl


example : ∃ r, shift ⟨true, [5]⟩ ⟨false, [70]⟩ false = .ok r ∧ r.WF ∧ r.toInt = -5 * 2 ^ 70 :=
  C19_shift_partial (x := ⟨true, [5]⟩) (y := ⟨false, [70]⟩) (by decide) (by decide) false
    (by decide) (Or.inl (by decide))

example : ∃ r, shift ⟨false, [1, 2, 3]⟩ ⟨false, [33]⟩ true = .ok r ∧ r.WF ∧
    r.toInt = (1 + 2 * 2 ^ 32 + 3 * 2 ^ 64) / 2 ^ 33 :=
  C19_shift_partial (x := ⟨false, [1, 2, 3]⟩) (y := ⟨false, [33]⟩) (by decide) (by decide) true
    (by decide) (Or.inl (by decide))

/-! ## C20 `asUintN` and `asIntN` -/

/-- The integer in `[0, 2^n)` congruent to `x`. -/
def uintSpec (n : Nat) (x : Int) : Int := x % 2 ^ n

/-- The integer in `[-2^(n-1), 2^(n-1))` congruent to `x` modulo `2^n` (`0` for `n = 0`). -/
def intSpec (n : Nat) (x : Int) : Int :=
  if n = 0 then 0 else (x + 2 ^ (n - 1)) % 2 ^ n - 2 ^ (n - 1)

/-- The two specifications are what the claim says. -/
theorem C20_spec (n : Nat) (x : Int) :
    (0 ≤ uintSpec n x ∧ uintSpec n x < 2 ^ n ∧ (2 ^ n : Int) ∣ x - uintSpec n x) ∧
    (0 < n → -2 ^ (n - 1) ≤ intSpec n x ∧ intSpec n x < 2 ^ (n - 1) ∧
      (2 ^ n : Int) ∣ x - intSpec n x) := by
  have hp : (0 : Int) < 2 ^ n := by positivity
  refine ⟨⟨Int.emod_nonneg _ (by omega), Int.emod_lt_of_pos _ hp, ?_⟩, ?_⟩
  · unfold uintSpec; exact Int.dvd_self_sub_emod
  · intro hn
    have hd : (2 : Int) ^ n = 2 * 2 ^ (n - 1) := by
      rw [← pow_succ', show n - 1 + 1 = n by omega]
    have hq : (0 : Int) < 2 ^ (n - 1) := by positivity
    unfold intSpec
    rw [if_neg (by omega)]
    have h1 := Int.emod_nonneg (x + 2 ^ (n - 1)) (show (2 : Int) ^ n ≠ 0 by omega)
    have h2 := Int.emod_lt_of_pos (x + 2 ^ (n - 1)) hp
    refine ⟨by omega, by omega, ?_⟩
    have := Int.dvd_self_sub_emod (x := x + 2 ^ (n - 1)) (m := 2 ^ n)
    have he : x - ((x + 2 ^ (n - 1)) % 2 ^ n - 2 ^ (n - 1)) =
      x + 2 ^ (n - 1) - (x + 2 ^ (n - 1)) % 2 ^ n := by ring
    rw [he]; exact this

/-- The full claim. -/
def AsNExact : Prop := ∀ (n : Nat) (x : BI), x.WF →
  (asUintN n x).toInt = uintSpec n x.toInt ∧ (asIntN n x).toInt = intSpec n x.toInt

/-- The code violates both parts: `BigInt.asUintN(64, -1n)` gives `4294967295n`, and so
does `BigInt.asIntN(64, -1n)`. -/
theorem C20_violated : ¬ AsNExact := by
  intro h
  have := (h 64 ⟨true, [1]⟩ (by decide)).1
  revert this
  decide

theorem C20_asIntN_violated : ∃ (n : Nat) (x : BI), x.WF ∧ (asIntN n x).toInt ≠ intSpec n x.toInt :=
  ⟨64, ⟨true, [1]⟩, by decide, by decide⟩

theorem low_eq {x : BI} (hx : x.WF) (n : Nat) :
    (val (lowBits x n) : Int) = uintSpec n x.toInt ↔ (0 ≤ x.toInt ∨ n ≤ 32 * x.mag.length) := by
  obtain ⟨h1, _, _⟩ := lowBits_spec hx n
  rw [h1]
  unfold uintSpec
  cases hn : x.neg
  · rw [toInt_of_neg hn]
    simp
  · obtain ⟨hne, hp, hlt, hi⟩ := neg_facts hx hn
    simp only [if_true]
    rw [hi, Int.natCast_mod, Int.ofNat_sub (by omega)]
    push_cast
    have hsplit : (4294967296 : Int) ^ x.mag.length = 2 ^ (32 * x.mag.length) := by
      exact_mod_cast base_pow x.mag.length
    rw [hsplit]
    have hlt' : (val x.mag : Int) < 2 ^ (32 * x.mag.length) := by
      rw [← hsplit]; exact_mod_cast hlt
    constructor
    · intro h
      right
      by_contra hc
      have hlt2 : (2 : Int) ^ (32 * x.mag.length) < 2 ^ n :=
        pow_lt_pow_right₀ (by norm_num) (by omega)
      rw [Int.emod_eq_of_lt (by omega) (by omega)] at h
      have h3 : (-(val x.mag : Int)) % 2 ^ n = 2 ^ n - val x.mag := by
        rw [← Int.add_emod_right, Int.emod_eq_of_lt (by omega) (by omega)]; ring
      rw [h3] at h
      omega
    · intro h
      rcases h with h | h
      · omega
      · obtain ⟨k, hk⟩ := Nat.exists_eq_add_of_le h
        rw [hk, pow_add]
        rw [show (2 : Int) ^ n * 2 ^ k - (val x.mag : Int) = -(val x.mag : Int) + 2 ^ n * 2 ^ k by ring]
        rw [Int.add_mul_emod_self_left]

/-- `asUintN` is right exactly when the number is not negative or no longer result than
its own limbs is asked for; the result is always canonical. -/
theorem C20_asUintN_exact_iff {x : BI} (hx : x.WF) (n : Nat) :
    ((asUintN n x).toInt = uintSpec n x.toInt ↔ (0 ≤ x.toInt ∨ n ≤ 32 * x.mag.length)) ∧
    (asUintN n x).WF := by
  obtain ⟨_, h2, h3⟩ := lowBits_spec hx n
  refine ⟨?_, WF.ofMag h2 h3⟩
  rw [asUintN, toInt_ofMag]
  exact low_eq hx n

theorem intSpec_eq {n : Nat} (hn : 0 < n) (x : Int) :
    intSpec n x = if uintSpec n x < 2 ^ (n - 1) then uintSpec n x else uintSpec n x - 2 ^ n := by
  have hp : (0 : Int) < 2 ^ n := by positivity
  have hd : (2 : Int) ^ n = 2 * 2 ^ (n - 1) := by
    rw [← pow_succ', show n - 1 + 1 = n by omega]
  unfold intSpec uintSpec
  rw [if_neg (by omega)]
  have h1 := Int.emod_nonneg x (show (2 : Int) ^ n ≠ 0 by omega)
  have h2 := Int.emod_lt_of_pos x hp
  have he : (x + 2 ^ (n - 1)) % 2 ^ n = (x % 2 ^ n + 2 ^ (n - 1)) % 2 ^ n := by
    rw [Int.emod_add_emod]
  rw [he]
  split
  · rw [Int.emod_eq_of_lt (by omega) (by omega)]; ring
  · rw [← Int.sub_emod_right, Int.emod_eq_of_lt (by omega) (by omega)]
    ring

/-- `asIntN` is right under exactly the same condition (`n > 0`). -/
theorem C20_asIntN_exact_iff {x : BI} (hx : x.WF) {n : Nat} (hn : 0 < n) :
    ((asIntN n x).toInt = intSpec n x.toInt ↔ (0 ≤ x.toInt ∨ n ≤ 32 * x.mag.length)) ∧
    (asIntN n x).WF := by
  obtain ⟨h1, h2⟩ := asIntN_spec hx hn
  refine ⟨?_, h1⟩
  rw [h2, intSpec_eq hn, ← low_eq hx n]
  have hp : (0 : Int) < 2 ^ n := by positivity
  have hlow : (val (lowBits x n) : Int) < 2 ^ n := by
    rw [(lowBits_spec hx n).1]; exact_mod_cast Nat.mod_lt _ (Nat.two_pow_pos n)
  have hu1 : 0 ≤ uintSpec n x.toInt := Int.emod_nonneg _ (by omega)
  have hu2 : uintSpec n x.toInt < 2 ^ n := Int.emod_lt_of_pos _ hp
  have hc : ((2 ^ n : Nat) : Int) = 2 ^ n := by push_cast; rfl
  have hd : (2 : Int) ^ n = 2 * 2 ^ (n - 1) := by
    rw [← pow_succ', show n - 1 + 1 = n by omega]
  have hcond : val (lowBits x n) < 2 ^ (n - 1) ↔ (val (lowBits x n) : Int) < 2 ^ (n - 1) := by
    constructor
    · intro h; exact_mod_cast h
    · intro h; exact_mod_cast h
  rw [hc]
  simp only [hcond]
  split <;> split <;> omega

/-- `asUintN` and `asIntN` are right for every non-negative number and any bit count, and
for a negative number when the bit count is at most 32 times its number of limbs.
Missing from the full claim: negative numbers and larger bit counts, which are always
wrong (`C20_asUintN_exact_iff`, `C20_asIntN_exact_iff`). -/
theorem C20_partial {x : BI} (hx : x.WF) (n : Nat)
    (h : 0 ≤ x.toInt ∨ n ≤ 32 * x.mag.length) :
    (asUintN n x).toInt = uintSpec n x.toInt ∧ (asUintN n x).WF ∧
    (asIntN n x).toInt = intSpec n x.toInt ∧ (asIntN n x).WF := by
  have hu := C20_asUintN_exact_iff hx n
  refine ⟨hu.1.2 h, hu.2, ?_⟩
  by_cases hn : 0 < n
  · have hi := C20_asIntN_exact_iff hx hn
    exact ⟨hi.1.2 h, hi.2⟩
  · have h0 : n = 0 := by omega
    subst h0
    have hz : lowBits x 0 = [] := by
      have h1 := (lowBits_spec hx 0).1
      rw [Nat.pow_zero, Nat.mod_one] at h1
      exact (val_eq_zero (lowBits_spec hx 0).2.2).1 h1
    have : asIntN 0 x = BI.zero := by unfold asIntN; rw [hz]; rfl
    rw [this]; exact ⟨rfl, WF.zero⟩

example : (asIntN 64 ⟨false, [0, 2147483648]⟩).toInt = -2 ^ 63 := by decide
example : (asUintN 8 ⟨true, [1]⟩).toInt = 255 := by decide

/-! ## C21 comparison and canonical form -/

/-- Comparison is the order of the integers; `sameValue` holds exactly for equal
integers. -/
theorem C21_compare {x y : BI} (hx : x.WF) (hy : y.WF) :
    (compare x y = .less ↔ x.toInt < y.toInt) ∧
    (compare x y = .equal ↔ x.toInt = y.toInt) ∧
    (compare x y = .greater ↔ y.toInt < x.toInt) ∧
    (sameValue x y = true ↔ x.toInt = y.toInt) ∧
    (x.isZero = true ↔ x.toInt = 0) := by
  have hsv : sameValue x y = true ↔ x.toInt = y.toInt := by
    constructor
    · intro h
      simp only [sameValue, Bool.and_eq_true, beq_iff_eq] at h
      have : x = y := by cases x; cases y; simp_all
      rw [this]
    · intro h
      rw [toInt_inj hx hy h]; simp [sameValue]
  have hcmp := cmpAbs_spec hx.digits hx.top hy.digits hy.top
  have key : compare x y = if x.toInt < y.toInt then .less
      else if x.toInt = y.toInt then .equal else .greater := by
    unfold compare
    have zx : x.isZero = true ↔ val x.mag = 0 := by
      rw [val_eq_zero hx.top]; simp [BI.isZero]
    have zy : y.isZero = true ↔ val y.mag = 0 := by
      rw [val_eq_zero hy.top]; simp [BI.isZero]
    have sx : x.neg = true → val x.mag ≠ 0 := fun h => by have := (neg_facts hx h).2.1; omega
    have sy : y.neg = true → val y.mag ≠ 0 := fun h => by have := (neg_facts hy h).2.1; omega
    rw [hcmp]
    generalize hvx : val x.mag = a at *
    generalize hvy : val y.mag = b at *
    have ix : x.toInt = if x.neg then -(a : Int) else a := by rw [← hvx]; rfl
    have iy : y.toInt = if y.neg then -(b : Int) else b := by rw [← hvy]; rfl
    rw [ix, iy]
    cases hxn : x.neg <;> cases hyn : y.neg <;> simp only [hxn, hyn] at sx sy <;>
      cases hxz : x.isZero <;> cases hyz : y.isZero <;>
      simp only [hxz, hyz, Bool.false_eq_true, false_iff, true_iff, forall_const] at zx zy sx sy <;>
      simp only [Bool.not_true, Bool.not_false, Bool.and_true, Bool.and_false, Bool.or_true, Bool.or_false, if_true, if_false, Bool.false_eq_true] <;>
      first
        | omega
        | (rw [if_pos (by omega)])
        | (rw [if_neg (by omega), if_pos (by omega)])
        | (rw [if_neg (by omega), if_neg (by omega)])
        | (rcases Nat.lt_trichotomy a b with h | h | h
           · simp [h, show ¬ b < a by omega, show ¬ (a = b) by omega, show ¬ b = a by omega]
           · simp [h]
           · simp [h, show ¬ a < b by omega, show ¬ (a = b) by omega])
  refine ⟨?_, ?_, ?_, hsv, isZero_iff hx⟩
  · rw [key]; split
    · simp [*]
    · split <;> simp [*]
  · rw [key]; split
    · simp; omega
    · split <;> simp [*]
  · rw [key]; split
    · simp; omega
    · split
      · simp; omega
      · simp; omega

/-- The big integers a program can produce: literals and parsed strings, and the results
of all operations. -/
inductive Produced : BI → Prop
  | parse (radix : Nat) (ds : List Nat) (h : radix ≤ 36) (hd : ∀ d ∈ ds, d < radix) :
      Produced (fromDigits radix ds BI.zero)
  | unaryMinus {x} : Produced x → Produced (unaryMinus x)
  | not {x} : Produced x → Produced (bitwiseNot x)
  | inc {x} : Produced x → Produced (inc x)
  | dec {x} : Produced x → Produced (dec x)
  | add {x y} : Produced x → Produced y → Produced (add x y)
  | subtract {x y} : Produced x → Produced y → Produced (subtract x y)
  | mul {x y} : Produced x → Produced y → Produced (mul x y)
  | quot {x y q r} : Produced x → Produced y → div x y = .ok q r → Produced q
  | rem {x y q r} : Produced x → Produced y → div x y = .ok q r → Produced r
  | exp {x y r} : Produced x → Produced y → exponentiate x y = .ok r → Produced r
  | shift {x y r} (rev : Bool) : Produced x → Produced y → shift x y rev = .ok r → Produced r
  | bitOp {x y} (op : BitOp) : Produced x → Produced y → Produced (bitOp op x y)
  | asUintN {x} (n : Nat) : Produced x → Produced (asUintN n x)
  | asIntN {x} (n : Nat) : Produced x → Produced (asIntN n x)

/-- Every big integer any sequence of operations can produce is canonical - also where
the operation computes a wrong integer. -/
theorem C21_canonical {x : BI} (h : Produced x) : x.WF := by
  induction h with
  | parse radix ds h hd => exact (C18_parse h ds hd).2
  | @unaryMinus x _ ih =>
    unfold BigInt.unaryMinus; split
    · exact WF.zero
    · exact WF.negate ih
  | @not x _ ih =>
    unfold bitwiseNot; split
    · rename_i hn
      obtain ⟨_, hp, _, _⟩ := neg_facts ih hn
      exact WF.strip (subIntLoop_spec x.mag 1 ih.digits (by omega) (by decide) (by omega)).2
    · obtain ⟨_, h2, h3, _⟩ := addIntLoop_spec x.mag 1 ih.digits (by decide)
      exact WF.negate (WF.ofMag h2 (h3 ih.top))
  | @inc x _ ih =>
    unfold BigInt.inc; split
    · rename_i hn
      obtain ⟨_, hp, _, _⟩ := neg_facts ih hn
      exact WF.negate
        (WF.strip (subIntLoop_spec x.mag 1 ih.digits (by omega) (by decide) (by omega)).2)
    · obtain ⟨_, h2, h3, _⟩ := addIntLoop_spec x.mag 1 ih.digits (by decide)
      exact WF.ofMag h2 (h3 ih.top)
  | @dec x _ ih =>
    unfold BigInt.dec; split
    · decide
    · rename_i hz
      split
      · obtain ⟨_, h2, h3, _⟩ := addIntLoop_spec x.mag 1 ih.digits (by decide)
        exact WF.negate (WF.ofMag h2 (h3 ih.top))
      · have hp : 0 < val x.mag := val_pos ih.top (fun h => hz (by simp [BI.isZero, h]))
        exact WF.strip (subIntLoop_spec x.mag 1 ih.digits (by omega) (by decide) (by omega)).2
  | add _ _ h1 h2 => exact wf_add h1 h2
  | subtract _ _ h1 h2 => exact wf_subtract h1 h2
  | mul _ _ h1 h2 => exact (mul_spec h1 h2).1
  | quot _ _ h h1 _ => exact (div_wf h1 h).1
  | rem _ _ h h1 _ => exact (div_wf h1 h).2
  | exp _ _ h h1 h2 => exact exponentiate_wf h1 h2 h
  | shift rev _ _ h h1 _ => exact shift_wf h1 h
  | bitOp op _ _ h1 h2 => exact (bitOp_spec op h1 h2).1
  | asUintN n _ h => exact (C20_asUintN_exact_iff h n).2
  | @asIntN x n _ h =>
    by_cases hn : 0 < n
    · exact (C20_asIntN_exact_iff h hn).2
    · have h0 : n = 0 := by omega
      subst h0
      have hz : lowBits x 0 = [] := by
        have h1 := (lowBits_spec h 0).1
        rw [Nat.pow_zero, Nat.mod_one] at h1
        exact (val_eq_zero (lowBits_spec h 0).2.2).1 h1
      have : BigInt.asIntN 0 x = BI.zero := by unfold BigInt.asIntN; rw [hz]; rfl
      rw [this]; exact WF.zero

/-- Put together: of all big integers a program can produce, two compare equal exactly
when they have the same representation. -/
theorem C21_equal_iff_same {x y : BI} (hx : Produced x) (hy : Produced y) :
    compare x y = .equal ↔ x = y := by
  rw [(C21_compare (C21_canonical hx) (C21_canonical hy)).2.1]
  exact ⟨toInt_inj (C21_canonical hx) (C21_canonical hy), fun h => by rw [h]⟩

example : Produced ⟨true, [0, 1]⟩ := by
  have h1 : Produced ⟨false, [4294967295]⟩ :=
    .parse 16 [15, 15, 15, 15, 15, 15, 15, 15] (by decide) (by decide)
  have h2 : Produced (bitwiseNot ⟨false, [4294967295]⟩) := .not h1
  exact h2

/-! ## C56 exponentiation -/

/-- The full claim for `**` with a non-negative exponent (a huge exponent may raise a
`RangeError` instead). -/
def ExpExact : Prop := ∀ x y r : BI, x.WF → y.WF → exponentiate x y = .ok r →
  0 ≤ y.toInt ∧ r.toInt = x.toInt ^ y.toInt.toNat

/-- The code violates the claim: `(-5n) ** 1n` gives `5n`. -/
theorem C56_violated : ¬ ExpExact := by
  intro h
  have := (h ⟨true, [5]⟩ ⟨false, [1]⟩ ⟨false, [5]⟩ (by decide) (by decide) (by decide)).2
  revert this
  decide

/-- A negative exponent is a `RangeError`. -/
theorem C56_negative {x y : BI} (hy : y.WF) (h : y.toInt < 0) : exponentiate x y = .rangeError := by
  have : y.neg = true := by
    cases hn : y.neg
    · rw [toInt_of_neg hn] at h; simp at h; omega
    · rfl
  unfold exponentiate; rw [if_pos this]

/-- For exponents below `2^32` the power is computed, canonical, and exact except for a
base below `-1` with exponent one. -/
theorem C56_exact_iff {x y : BI} (hx : x.WF) (hy : y.WF) (h0 : 0 ≤ y.toInt)
    (h : y.toInt < 2 ^ 32) :
    ∃ r, exponentiate x y = .ok r ∧ r.WF ∧
      (r.toInt = x.toInt ^ y.toInt.toNat ↔ ¬ (x.toInt < -1 ∧ y.toInt = 1)) := by
  have hyn : y.neg = false := by
    cases hn : y.neg
    · rfl
    · have := neg_facts hy hn; omega
  have hv : y.toInt = val y.mag := by rw [toInt_of_neg hyn]; simp
  have hl : y.mag.length ≤ 1 := length_le_of_val_lt hy.top (by unfold base; omega)
  obtain ⟨r, h1, h2, h3⟩ := exponentiate_spec hx hy hyn hl
  refine ⟨r, h1, h2, ?_⟩
  rw [h3, hv, Int.toNat_natCast]
  have hc : (x.neg = true ∧ val x.mag ≠ 1 ∧ val y.mag = 1) ↔ (x.toInt < -1 ∧ (val y.mag : Int) = 1) := by
    cases hn : x.neg
    · rw [toInt_of_neg hn]; simp
    · obtain ⟨_, hp, _, hi⟩ := neg_facts hx hn
      rw [hi]; simp; omega
  by_cases hcc : x.neg = true ∧ val x.mag ≠ 1 ∧ val y.mag = 1
  · have h5 := hc.1 hcc
    rw [if_pos hcc, hcc.2.2]
    have := h5.1
    simp; omega
  · rw [if_neg hcc]
    have h5 := fun h => hcc (hc.2 h)
    rw [Int.one_mul]
    exact iff_of_true rfl h5

/-- `**` is exact for exponents below `2^32`, except for a base below `-1` and exponent
one.  Missing from the full claim: that case, and exponents of `2^32` and more, which are
a `RangeError` unless the base is zero. -/
theorem C56_partial {x y : BI} (hx : x.WF) (hy : y.WF) (h0 : 0 ≤ y.toInt)
    (h : y.toInt < 2 ^ 32) (hn : -1 ≤ x.toInt ∨ y.toInt ≠ 1) :
    ∃ r, exponentiate x y = .ok r ∧ r.WF ∧ r.toInt = x.toInt ^ y.toInt.toNat := by
  obtain ⟨r, h1, h2, h3⟩ := C56_exact_iff hx hy h0 h
  exact ⟨r, h1, h2, h3.2 (by omega)⟩

example : ∃ r, exponentiate ⟨true, [3]⟩ ⟨false, [41]⟩ = .ok r ∧ r.WF ∧ r.toInt = (-3) ^ 41 :=
  C56_partial (x := ⟨true, [3]⟩) (y := ⟨false, [41]⟩) (by decide) (by decide) (by decide)
    (by decide) (Or.inr (by decide))

end Verif.BigInt
