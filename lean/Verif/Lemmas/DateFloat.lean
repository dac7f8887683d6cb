import Verif.Model.Date
import Mathlib.Tactic.Linarith
import Mathlib.Tactic.Ring

/-!
# Division of doubles

`floorDiv` (the floor of a rounded quotient) is the exact floor for the values that occur.
-/

namespace Verif.Date

theorem rne_ge (n d : Nat) : n / d ≤ rne n d := by
  unfold rne; split <;> (try split) <;> (try split) <;> omega

theorem rne_le (n d : Nat) : rne n d ≤ n / d + 1 := by
  unfold rne; split <;> (try split) <;> (try split) <;> omega

/-- The error of rounding is at most one half. -/
theorem rne_near {n d : Nat} (hd : 0 < d) :
    2 * (rne n d * d) ≤ 2 * n + d ∧ 2 * n ≤ 2 * (rne n d * d) + d := by
  have h := Nat.div_add_mod n d
  have hl := Nat.mod_lt n hd
  have e : n / d * d = d * (n / d) := Nat.mul_comm _ _
  have e2 : (n / d + 1) * d = d * (n / d) + d := by rw [Nat.add_mul, e]; omega
  unfold rne
  split
  · omega
  split
  · omega
  split <;> omega

theorem rne_exact {q d : Nat} (hd : 0 < d) : rne (q * d) d = q := by
  unfold rne
  rw [Nat.mul_mod_left, Nat.mul_div_cancel _ hd]
  simp [hd]

theorem scale_le (n d : Nat) : ∀ f k, k ≤ scale n d f k
  | 0, k => Nat.le_refl k
  | f + 1, k => by
    unfold scale
    split
    · exact Nat.le_trans (Nat.le_succ k) (scale_le n d f (k + 1))
    · exact Nat.le_refl k

theorem scale_max (n d : Nat) : ∀ f k,
    scale n d f k = k + f ∨ 2 ^ 53 * d ≤ n * 2 ^ (scale n d f k + 1)
  | 0, k => Or.inl rfl
  | f + 1, k => by
    unfold scale
    split
    · rcases scale_max n d f (k + 1) with h | h
      · left; rw [h]; omega
      · exact Or.inr h
    · right; omega

/-- The rounded quotient keeps a quarter of the distance between multiples of `1 / d`. -/
theorem scale_fine {n d : Nat} (hn : n < 2 ^ 53) (hd : d < 2 ^ 64) :
    d < 2 ^ (scale n d 1074 0 + 1) := by
  rcases scale_max n d 1074 0 with h | h
  · rw [h]; exact Nat.lt_of_lt_of_le hd (Nat.pow_le_pow_right (by omega) (by omega))
  · rcases Nat.lt_or_ge d (2 ^ (scale n d 1074 0 + 1)) with hlt | hge
    · exact hlt
    · exfalso
      have h1 : n * 2 ^ (scale n d 1074 0 + 1) ≤ n * d := Nat.mul_le_mul_left n hge
      have hd0 : 0 < d := Nat.lt_of_lt_of_le (Nat.pow_pos (by omega)) hge
      have h2 : n * d < 2 ^ 53 * d := Nat.mul_lt_mul_of_pos_right hn hd0
      omega

/-- Rounding does not reach the next integer above. -/
theorem floor_of_near {n d P m : Nat} (hd : 0 < d) (hP : d < 2 * P) (hm : n * P / d ≤ m)
    (hn : 2 * (m * d) ≤ 2 * (n * P) + d) : m / P = n / d := by
  have hP0 : 0 < P := by omega
  have e := Nat.div_add_mod n d
  have hr := Nat.mod_lt n hd
  have hle : n / d * P ≤ m := by
    refine Nat.le_trans ?_ hm
    rw [Nat.le_div_iff_mul_le hd]
    calc n / d * P * d = (d * (n / d)) * P := by ring
    _ ≤ n * P := Nat.mul_le_mul_right P (by omega)
  have hlt : m < (n / d + 1) * P := by
    by_contra hc
    have hc : (n / d + 1) * P ≤ m := by omega
    have h1 : (n / d + 1) * P * d ≤ m * d := Nat.mul_le_mul_right d hc
    have h2 : (n + 1) * P ≤ (n / d + 1) * P * d := by
      calc (n + 1) * P ≤ (d * (n / d) + d) * P := Nat.mul_le_mul_right P (by omega)
      _ = (n / d + 1) * P * d := by ring
    have h3 : (n + 1) * P = n * P + P := by ring
    omega
  exact Nat.div_eq_of_lt_le hle hlt

/-- Nor the next integer below. -/
theorem ceil_of_near {n d P m : Nat} (hd : 0 < d) (hP : d < 2 * P)
    (hq : m = n * P / d ∨ (m = n * P / d + 1 ∧ n * P % d ≠ 0))
    (hn : 2 * (n * P) ≤ 2 * (m * d) + d) : (m + P - 1) / P = (n + d - 1) / d := by
  have hP0 : 0 < P := by omega
  have hc := Nat.div_add_mod (n + d - 1) d
  have hcr := Nat.mod_lt (n + d - 1) hd
  generalize hcdef : (n + d - 1) / d = c at *
  have hup : n ≤ c * d := by
    have : d * c = c * d := Nat.mul_comm _ _
    omega
  have hlo : c * d < n + d := by
    have : d * c = c * d := Nat.mul_comm _ _
    omega
  have hmle : m ≤ c * P := by
    have h1 : n * P ≤ c * P * d := by
      calc n * P ≤ c * d * P := Nat.mul_le_mul_right P hup
      _ = c * P * d := by ring
    rcases hq with hq | ⟨hq, hr⟩
    · rw [hq]
      exact Nat.div_le_of_le_mul (by have := Nat.mul_comm d (c * P); omega)
    · rw [hq]
      have h2 := Nat.div_add_mod (n * P) d
      by_contra hcon
      have h3 : c * P ≤ n * P / d := by omega
      have h4 : c * P * d ≤ n * P / d * d := Nat.mul_le_mul_right d h3
      have h5 : n * P / d * d = d * (n * P / d) := Nat.mul_comm _ _
      omega
  apply Nat.div_eq_of_lt_le
  · -- c * P ≤ m + P - 1
    rcases Nat.eq_zero_or_pos c with h0 | h0
    · rw [h0]; omega
    · by_contra hcon
      have h1 : m + P ≤ c * P := by omega
      have h2 : (m + P) * d ≤ c * P * d := Nat.mul_le_mul_right d h1
      have h3 : c * P * d + P ≤ n * P + d * P := by
        calc c * P * d + P = (c * d + 1) * P := by ring
        _ ≤ (n + d) * P := Nat.mul_le_mul_right P (by omega)
        _ = n * P + d * P := by ring
      have h4 : (m + P) * d = m * d + d * P := by ring
      omega
  · have : (c + 1) * P = c * P + P := by ring
    omega

theorem rne_or {n d : Nat} (hd : 0 < d) :
    rne n d = n / d ∨ (rne n d = n / d + 1 ∧ n % d ≠ 0) := by
  unfold rne
  split
  · exact Or.inl rfl
  split
  · right; exact ⟨rfl, by omega⟩
  split
  · exact Or.inl rfl
  · right; exact ⟨rfl, by omega⟩

theorem neg_ceil {n d : Nat} (hd : 0 < d) : -(((n + d - 1) / d : Nat) : Int) = (-(n : Int)) / (d : Int) := by
  have hc := Nat.div_add_mod (n + d - 1) d
  have hcr := Nat.mod_lt (n + d - 1) hd
  generalize (n + d - 1) / d = c at *
  symm
  rw [Int.ediv_eq_iff_of_pos (by omega)]
  have e : ((d * c : Nat) : Int) = (d : Int) * (c : Int) := by push_cast; ring
  constructor
  · have : -(c : Int) * (d : Int) = -((d : Int) * (c : Int)) := by ring
    omega
  · have : -(c : Int) * (d : Int) = -((d : Int) * (c : Int)) := by ring
    omega

/-- For numerators of at most 53 bits, the floor of the rounded quotient is the exact floor. -/
theorem floorDiv_small {a : Int} {d : Nat} (hd : 0 < d) (hd2 : d < 2 ^ 64)
    (ha : a.natAbs < 2 ^ 53) : floorDiv a d = a / (d : Int) := by
  have hn : ¬(2 ^ 53 * d ≤ a.natAbs) := by
    have : 2 ^ 53 * 1 ≤ 2 ^ 53 * d := Nat.mul_le_mul_left _ hd
    omega
  unfold floorDiv
  rw [if_neg hn]
  simp only
  have hf := scale_fine ha hd2
  generalize scale a.natAbs d 1074 0 = k at *
  have hP : d < 2 * 2 ^ k := by rw [Nat.pow_succ] at hf; omega
  have hnear := rne_near (n := a.natAbs * 2 ^ k) hd
  split
  · rename_i h0
    rw [floor_of_near hd hP (rne_ge _ _) hnear.1]
    push_cast
    rw [abs_of_nonneg h0]
  · rename_i h0
    rw [ceil_of_near hd hP (rne_or hd) hnear.2, neg_ceil hd]
    congr 1
    omega

/-- An exact quotient is not rounded: `a = q * d`, with `q` an integer of at most 53 bits. -/
theorem floorDiv_exact {q : Int} {d : Nat} (hd : 0 < d) (hq : q.natAbs < 2 ^ 53) :
    floorDiv (q * d) d = q := by
  have hna : (q * (d : Int)).natAbs = q.natAbs * d := by rw [Int.natAbs_mul]; simp
  have hn : ¬(2 ^ 53 * d ≤ (q * (d : Int)).natAbs) := by
    rw [hna]
    have := Nat.mul_lt_mul_of_pos_right hq hd
    omega
  unfold floorDiv
  rw [if_neg hn]
  simp only
  rw [hna]
  generalize scale (q.natAbs * d) d 1074 0 = k
  have e : q.natAbs * d * 2 ^ k = (q.natAbs * 2 ^ k) * d := by ring
  rw [e, rne_exact hd]
  have hp : 0 < 2 ^ k := Nat.pow_pos (by omega)
  have e2 : (q.natAbs * 2 ^ k + 2 ^ k - 1) / 2 ^ k = q.natAbs := by
    apply Nat.div_eq_of_lt_le
    · omega
    · rw [Nat.add_mul]; omega
  rw [Nat.mul_div_cancel _ hp, e2]
  have hdz : (0 : Int) < (d : Int) := by omega
  by_cases h0 : 0 ≤ q
  · rw [if_pos (Int.mul_nonneg h0 (by omega))]; omega
  · rw [if_neg (by
      intro h
      have := Int.mul_neg_of_neg_of_pos (by omega : q < 0) hdz
      omega)]
    omega

/-- Integers of at most 53 bits are doubles. -/
theorem rnd_small {a : Int} (ha : a.natAbs < 2 ^ 53) : rnd a = a := by
  unfold rnd
  rw [floorDiv_small (by omega) (Nat.one_lt_two_pow (by omega)) ha]
  simp

/-- So are their multiples by powers of two. -/
theorem rnd_mul_pow {q : Int} {e : Nat} (hq : q.natAbs < 2 ^ 53) :
    rnd (q * 2 ^ e) = q * 2 ^ e := by
  have hna : (q * 2 ^ e).natAbs = q.natAbs * 2 ^ e := by
    rw [Int.natAbs_mul, Int.natAbs_pow]; rfl
  rcases Nat.lt_or_ge (q.natAbs * 2 ^ e) (2 ^ 53) with h | h
  · exact rnd_small (by rw [hna]; exact h)
  · unfold rnd floorDiv
    rw [hna, if_pos (by omega)]
    simp only [Nat.div_one, Nat.one_mul]
    have hne : q.natAbs * 2 ^ e ≠ 0 := by omega
    -- the logarithm leaves at most `e` bits to be cut
    have hl : (q.natAbs * 2 ^ e).log2 - 52 ≤ e := by
      have : (q.natAbs * 2 ^ e).log2 < 53 + e := by
        rw [Nat.log2_lt hne, Nat.pow_add]
        exact Nat.mul_lt_mul_of_pos_right hq (Nat.pow_pos (by omega))
      omega
    generalize (q.natAbs * 2 ^ e).log2 - 52 = l at *
    have hp : 0 < 2 ^ l := Nat.pow_pos (by omega)
    have e1 : q.natAbs * 2 ^ e = q.natAbs * 2 ^ (e - l) * 2 ^ l := by
      rw [Nat.mul_assoc, ← Nat.pow_add]
      congr 2
      omega
    rw [e1, rne_exact hp, ← e1]
    have hpz : (0 : Int) < 2 ^ e := by positivity
    by_cases h0 : 0 ≤ q
    · rw [if_pos (Int.mul_nonneg h0 (by omega))]
      push_cast
      rw [abs_of_nonneg h0]
    · rw [if_neg (by
        intro h
        have := Int.mul_neg_of_neg_of_pos (by omega : q < 0) hpz
        omega)]
      push_cast
      rw [abs_of_neg (by omega)]
      ring

end Verif.Date
