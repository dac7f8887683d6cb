import Verif.Lemmas.BigIntShift
/-
Properties C15-C21 and C56: arithmetic of the built-in big integers.

`BI.toInt` (Spec/BigInt.lean) is the integer a stored value stands for and
`BI.WF` its canonical form.  All theorems quantify over all canonical values.
Where the code is not exact, the exact condition is given as an equivalence, the
claim itself is refuted by a concrete witness, and a `_partial` theorem states
the part of the claim that holds.
-/
namespace Verif.BigInt

/-! ## C15 addition and subtraction -/

/-- The full claim for `+`. -/
def AddExact : Prop := ∀ x y : BI, x.WF → y.WF → (add x y).toInt = x.toInt + y.toInt

/-- The full claim for `-`. -/
def SubExact : Prop := ∀ x y : BI, x.WF → y.WF → (subtract x y).toInt = x.toInt - y.toInt

/-- The code violates the claim for `+`: `(5*2^64 + 5*2^32) + (-1)`. -/
theorem C15_add_violated : ¬ AddExact := by
  intro h
  have := h ⟨false, [0, 5, 5]⟩ ⟨true, [1]⟩ (by decide) (by decide)
  revert this
  decide

/-- The code violates the claim for `-`: `(5*2^64 + 5*2^32) - 1`. -/
theorem C15_subtract_violated : ¬ SubExact := by
  intro h
  have := h ⟨false, [0, 5, 5]⟩ ⟨false, [1]⟩ (by decide) (by decide)
  revert this
  decide

/-- Exactly when `a + b` is right: the operands have the same sign, or the limb-wise
subtraction of the smaller from the larger magnitude needs a borrow at every limb
above the first borrow (below the top limb). -/
theorem C15_add_exact_iff {x y : BI} (hx : x.WF) (hy : y.WF) :
    (add x y).toInt = x.toInt + y.toInt ↔
      (x.neg ≠ y.neg → BorrowContiguous (max x.toInt.natAbs y.toInt.natAbs)
        (min x.toInt.natAbs y.toInt.natAbs) (max x.mag.length y.mag.length)) := by
  rw [toInt_natAbs, toInt_natAbs]; exact toInt_add hx hy

/-- Exactly when `a - b` is right. -/
theorem C15_subtract_exact_iff {x y : BI} (hx : x.WF) (hy : y.WF) :
    (subtract x y).toInt = x.toInt - y.toInt ↔
      (x.neg = y.neg → BorrowContiguous (max x.toInt.natAbs y.toInt.natAbs)
        (min x.toInt.natAbs y.toInt.natAbs) (max x.mag.length y.mag.length)) := by
  rw [toInt_natAbs, toInt_natAbs]; exact toInt_subtract hx hy

theorem mag_length_le_two {x : BI} (hx : x.WF) (h : x.toInt.natAbs < 2 ^ 64) : x.mag.length ≤ 2 := by
  apply length_le_of_val_lt hx.top
  rw [← toInt_natAbs]
  exact h

/-- `a + b` is exact when the operands have the same sign, or both are below `2^64`.
Missing from the full claim: operands of different sign, one of them at least `2^64`
(see `C15_add_exact_iff` for exactly which of these are right). -/
theorem C15_add_partial {x y : BI} (hx : x.WF) (hy : y.WF)
    (h : x.neg = y.neg ∨ (x.toInt.natAbs < 2 ^ 64 ∧ y.toInt.natAbs < 2 ^ 64)) :
    (add x y).toInt = x.toInt + y.toInt ∧ (add x y).WF := by
  refine ⟨?_, wf_add hx hy⟩
  rw [C15_add_exact_iff hx hy]
  intro hne
  rcases h with h | ⟨h1, h2⟩
  · exact absurd h hne
  · apply borrow_of_short
    have := mag_length_le_two hx h1
    have := mag_length_le_two hy h2
    omega

/-- `a - b` is exact when the operands have different signs, or both are below `2^64`.
Missing from the full claim: operands of the same sign, one of them at least `2^64`. -/
theorem C15_subtract_partial {x y : BI} (hx : x.WF) (hy : y.WF)
    (h : x.neg ≠ y.neg ∨ (x.toInt.natAbs < 2 ^ 64 ∧ y.toInt.natAbs < 2 ^ 64)) :
    (subtract x y).toInt = x.toInt - y.toInt ∧ (subtract x y).WF := by
  refine ⟨?_, wf_subtract hx hy⟩
  rw [C15_subtract_exact_iff hx hy]
  intro he
  rcases h with h | ⟨h1, h2⟩
  · exact absurd he h
  · apply borrow_of_short
    have := mag_length_le_two hx h1
    have := mag_length_le_two hy h2
    omega

example : (add ⟨false, [4294967295, 7]⟩ ⟨false, [1]⟩).toInt = 2 ^ 35 := by decide
example : (subtract ⟨false, [0, 7]⟩ ⟨false, [1]⟩).toInt = 7 * 2 ^ 32 - 1 := by decide

/-- Unary minus, `++`, `--` and `~` are exact for every big integer. -/
theorem C15_unary {x : BI} (hx : x.WF) :
    ((unaryMinus x).toInt = - x.toInt ∧ (unaryMinus x).WF) ∧
    ((inc x).toInt = x.toInt + 1 ∧ (inc x).WF) ∧
    ((dec x).toInt = x.toInt - 1 ∧ (dec x).WF) ∧
    ((bitwiseNot x).toInt = - x.toInt - 1 ∧ (bitwiseNot x).WF) := by
  have hadd : (addInt x 1).WF ∧ (addInt x 1).toInt = (val x.mag : Int) + 1 := by
    obtain ⟨h1, h2, h3, _⟩ := addIntLoop_spec x.mag 1 hx.digits (by decide)
    exact ⟨WF.ofMag h2 (h3 hx.top), by rw [addInt, toInt_ofMag, h1]; push_cast; ring⟩
  have hsub : 0 < val x.mag → (subInt x 1).WF ∧ (subInt x 1).toInt = (val x.mag : Int) - 1 := by
    intro hp
    obtain ⟨h1, h2⟩ := subIntLoop_spec x.mag 1 hx.digits (by omega) (by decide) (by omega)
    exact ⟨WF.strip h2, by rw [subInt, toInt_strip, toInt_ofMag]; exact h1⟩
  refine ⟨?_, ?_, ?_, ?_⟩
  · unfold unaryMinus
    split
    · rename_i h; rw [toInt_of_isZero h]; exact ⟨rfl, WF.zero⟩
    · exact ⟨toInt_negate x, WF.negate hx⟩
  · unfold inc
    cases hn : x.neg
    · rw [toInt_of_neg hn]; simpa using ⟨hadd.2, hadd.1⟩
    · obtain ⟨_, hp, _, hi⟩ := neg_facts hx hn
      simp only [if_true]
      rw [toInt_negate, (hsub hp).2, hi]
      exact ⟨by ring, WF.negate (hsub hp).1⟩
  · unfold dec
    split
    · rename_i h; rw [toInt_of_isZero h]; exact ⟨by decide, by decide⟩
    · rename_i hz
      cases hn : x.neg
      · rw [toInt_of_neg hn]
        have hp : 0 < val x.mag := val_pos hx.top (fun h => hz (by simp [BI.isZero, h]))
        simpa using ⟨(hsub hp).2, (hsub hp).1⟩
      · obtain ⟨_, hp, _, hi⟩ := neg_facts hx hn
        simp only [if_true]
        rw [toInt_negate, hadd.2, hi]
        exact ⟨by ring, WF.negate hadd.1⟩
  · unfold bitwiseNot
    cases hn : x.neg
    · rw [toInt_of_neg hn]
      simp only [Bool.false_eq_true, if_false]
      rw [toInt_negate, hadd.2]
      exact ⟨by ring, WF.negate hadd.1⟩
    · obtain ⟨_, hp, _, hi⟩ := neg_facts hx hn
      simp only [if_true]
      rw [(hsub hp).2, hi]
      exact ⟨by ring, (hsub hp).1⟩

example : (inc ⟨false, [4294967295, 4294967295]⟩).toInt = 2 ^ 64 := by decide
example : (dec ⟨false, [0, 0, 1]⟩).toInt = 2 ^ 64 - 1 := by decide

/-! ## C16 multiplication -/

/-- The full claim for `*`. -/
def MulExact : Prop := ∀ x y : BI, x.WF → y.WF → (mul x y).toInt = x.toInt * y.toInt

/-- The code violates the claim: `-5n * 4294967297n` gives the positive product. -/
theorem C16_violated : ¬ MulExact := by
  intro h
  have := h ⟨true, [5]⟩ ⟨false, [1, 1]⟩ (by decide) (by decide)
  revert this
  decide

/-- The product has always the right magnitude; its sign is wrong exactly when the
first factor is negative (but not `-1`) and the second is not `±1` and congruent to
`±1` modulo `2^32`, meaning its lowest limb is one. -/
theorem C16_mul_exact_iff {x y : BI} (hx : x.WF) (hy : y.WF) :
    ((mul x y).toInt = x.toInt * y.toInt ↔
      ¬ (x.toInt < -1 ∧ y.toInt.natAbs ≠ 1 ∧ y.toInt.natAbs % 2 ^ 32 = 1)) ∧
    (mul x y).toInt.natAbs = x.toInt.natAbs * y.toInt.natAbs ∧ (mul x y).WF := by
  obtain ⟨h1, h2⟩ := mul_spec hx hy
  have hhd : y.mag.headD 0 = y.toInt.natAbs % 2 ^ 32 := by
    rw [toInt_natAbs, val_head_tail]
    have := digits_headD hy.digits
    unfold base at *; omega
  have hlt : (x.neg = true ∧ val x.mag ≠ 1) ↔ x.toInt < -1 := by
    cases hn : x.neg
    · rw [toInt_of_neg hn]; simp
    · obtain ⟨_, hp, _, hi⟩ := neg_facts hx hn
      rw [hi]; simp; omega
  have hcond : (x.neg = true ∧ val x.mag ≠ 1 ∧ val y.mag ≠ 1 ∧ y.mag.headD 0 = 1) ↔
      (x.toInt < -1 ∧ y.toInt.natAbs ≠ 1 ∧ y.toInt.natAbs % 2 ^ 32 = 1) := by
    rw [← hlt, hhd, toInt_natAbs]; tauto
  rw [h2]
  refine ⟨?_, ?_, h1⟩
  · by_cases hc : (x.toInt < -1 ∧ y.toInt.natAbs ≠ 1 ∧ y.toInt.natAbs % 2 ^ 32 = 1)
    · rw [if_pos (hcond.2 hc)]
      simp only [hc, not_true_eq_false, iff_false, ne_eq, and_self, not_false_eq_true]
      intro h
      have hx0 : x.toInt ≠ 0 := by omega
      have hy0 : y.toInt ≠ 0 := by
        intro h0; rw [h0] at hc; simp at hc
      have := Int.mul_ne_zero hx0 hy0
      omega
    · rw [if_neg (fun h => hc (hcond.1 h))]
      rw [Int.one_mul]; exact iff_of_true rfl hc
  · rw [Int.natAbs_mul, Int.natAbs_mul]
    split <;> simp

/-- Multiplication is exact unless the first factor is less than `-1` and the second
is `±(k*2^32 + 1)`, `k > 0`.  Missing from the full claim: exactly those cases. -/
theorem C16_partial {x y : BI} (hx : x.WF) (hy : y.WF)
    (h : 0 ≤ x.toInt ∨ x.toInt = -1 ∨ y.toInt.natAbs < 2 ^ 32 ∨ y.toInt.natAbs % 2 ^ 32 ≠ 1) :
    (mul x y).toInt = x.toInt * y.toInt ∧ (mul x y).WF := by
  obtain ⟨h1, _, h3⟩ := C16_mul_exact_iff hx hy
  refine ⟨h1.2 ?_, h3⟩
  omega

example : (mul ⟨true, [5, 1]⟩ ⟨true, [4294967295, 3]⟩).toInt =
    (-(5 + 2 ^ 32)) * (-(4294967295 + 3 * 2 ^ 32)) := by decide

/-! ## C17 division and remainder -/

/-- The full claim for `/` and `%`. -/
def DivExact : Prop := ∀ x y : BI, x.WF → y.WF → y.toInt ≠ 0 →
  ∃ q r, div x y = .ok q r ∧ q.toInt = x.toInt.tdiv y.toInt ∧ r.toInt = x.toInt.tmod y.toInt

/-- Division by zero is a `RangeError`. -/
theorem C17_div_zero {x y : BI} (hy : y.WF) (h : y.toInt = 0) : div x y = .rangeError := by
  unfold div; rw [if_pos ((isZero_iff hy).2 h)]

/-- The code violates the claim: `(6*2^64 - 2^32) / (5*2^32 + 1)` gives `2^32 - 1`, the
right quotient is `5153960754`. -/
theorem C17_violated : ¬ DivExact := by
  intro h
  obtain ⟨q, r, h1, h2, _⟩ := h ⟨false, [0, 4294967295, 5]⟩ ⟨false, [1, 5]⟩ (by decide) (by decide)
    (by decide)
  have h4 : div ⟨false, [0, 4294967295, 5]⟩ ⟨false, [1, 5]⟩ =
      .ok ⟨false, [4294967295]⟩ ⟨false, [1, 3]⟩ := by decide
  rw [h4] at h1
  injection h1 with h5 h6
  rw [← h5] at h2
  revert h2
  decide

/-- Division and remainder are exact when the dividend is below `2^64` (any divisor) or
the divisor below `2^32` (any dividend).  Missing from the full claim: the other
operands, for which subtraction (C15) loses borrows. -/
theorem C17_partial {x y : BI} (hx : x.WF) (hy : y.WF) (hy0 : y.toInt ≠ 0)
    (h : x.toInt.natAbs < 2 ^ 64 ∨ y.toInt.natAbs < 2 ^ 32) :
    ∃ q r, div x y = .ok q r ∧ q.WF ∧ r.WF ∧ q.toInt = x.toInt.tdiv y.toInt ∧
      r.toInt = x.toInt.tmod y.toInt := by
  apply div_spec hx hy hy0
  intro shift A' hs hA hA'
  rw [toInt_natAbs, toInt_natAbs] at h
  rcases h with h | h
  · exact subOK_short (lt_of_le_of_lt hA h)
  · have hl : y.mag.length ≤ 1 := length_le_of_val_lt hy.top h
    apply subOK_single
    exact lt_of_lt_of_le hA' (Nat.pow_le_pow_right (by decide) (by omega))


example : ∃ q r, div ⟨true, [0, 7]⟩ ⟨false, [9]⟩ = .ok q r ∧ q.WF ∧ r.WF ∧
    q.toInt = -3340530119 ∧ r.toInt = -1 :=
  C17_partial (x := ⟨true, [0, 7]⟩) (y := ⟨false, [9]⟩) (by decide) (by decide) (by decide)
    (Or.inl (by decide))

end Verif.BigInt
