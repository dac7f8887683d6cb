import Verif.Lemmas.NumText
import Mathlib.Tactic.FieldSimp
import Mathlib.Tactic.Positivity

/-!
Helper lemmas for C92: the number rounded half to even is the closest one.
-/
namespace Verif.NumText
open Spec
open NumStr (val_append val_zeros chr)
open NumStr.Spec (val chars)

theorem parts (B S : Nat) (hS : 0 < S) : (B : ℚ) / S = (B / S : Nat) + ((B % S : Nat) : ℚ) / S := by
  have hS' : (S : ℚ) ≠ 0 := by exact_mod_cast Nat.ne_of_gt hS
  have h : (B : ℚ) = S * (B / S : Nat) + (B % S : Nat) := by exact_mod_cast (Nat.div_add_mod B S).symm
  rw [eq_comm, eq_div_iff hS', add_mul, div_mul_cancel₀ _ hS', mul_comm, ← h]

theorem even_half (B S : Nat) (hS : 0 < S) : |(even B S : ℚ) - (B : ℚ) / S| ≤ 1 / 2 := by
  have hS' : (0 : ℚ) < S := by exact_mod_cast hS
  rw [parts B S hS]
  have hr : B % S < S := Nat.mod_lt _ hS
  have h2 : ((B % S : Nat) : ℚ) / S ≤ 1 := by
    rw [div_le_one hS']
    exact_mod_cast Nat.le_of_lt hr
  have h3 : (0 : ℚ) ≤ ((B % S : Nat) : ℚ) / S := by positivity
  unfold even
  by_cases h : S < 2 * (B % S) ∨ 2 * (B % S) = S ∧ B / S % 2 = 1
  · rw [if_pos h]
    have h1 : (1 / 2 : ℚ) ≤ ((B % S : Nat) : ℚ) / S := by
      rw [le_div_iff₀ hS']
      have : S ≤ 2 * (B % S) := by rcases h with h | h <;> omega
      have : (S : ℚ) ≤ 2 * (B % S : Nat) := by exact_mod_cast this
      linarith
    rw [Nat.cast_add]
    generalize ((B / S : Nat) : ℚ) = d at *
    generalize ((B % S : Nat) : ℚ) / S = r at *
    rw [abs_le]
    push_cast
    constructor <;> linarith
  · rw [if_neg h]
    have h1 : ((B % S : Nat) : ℚ) / S ≤ (1 / 2 : ℚ) := by
      rw [div_le_iff₀ hS']
      have : 2 * (B % S) ≤ S := by omega
      have : 2 * ((B % S : Nat) : ℚ) ≤ S := by exact_mod_cast this
      linarith
    generalize ((B / S : Nat) : ℚ) = d at *
    generalize ((B % S : Nat) : ℚ) / S = r at *
    rw [abs_le]
    constructor <;> linarith

/-- In the middle between two integers the even one is taken. -/
theorem even_tie (B S N : Nat) (hS : 0 < S) (h : (B : ℚ) / S = N + 1 / 2) :
    even B S = if N % 2 = 0 then N else N + 1 := by
  have hS' : (S : ℚ) ≠ 0 := by exact_mod_cast Nat.ne_of_gt hS
  rw [div_eq_iff hS'] at h
  have h1 : 2 * B = (2 * N + 1) * S := by
    have : (2 : ℚ) * B = (2 * N + 1) * S := by rw [h]; ring
    exact_mod_cast this
  have h2 : ∃ c, S = 2 * c := by
    rcases Nat.even_or_odd' S with ⟨c, hc | hc⟩
    · exact ⟨c, hc⟩
    · exfalso
      rw [hc] at h1
      have : (2 * N + 1) * (2 * c + 1) = 2 * (2 * N * c + N + c) + 1 := by ring
      omega
  obtain ⟨c, rfl⟩ := h2
  have hB : B = 2 * c * N + c := by
    have : (2 * N + 1) * (2 * c) = 2 * (2 * c * N + c) := by ring
    omega
  have hd : B / (2 * c) = N := by
    rw [hB, Nat.mul_add_div hS, Nat.div_eq_of_lt (by omega), Nat.add_zero]
  have hm : B % (2 * c) = c := by
    rw [hB, Nat.mul_add_mod, Nat.mod_eq_of_lt (by omega)]
  unfold even
  rw [hd, hm]
  by_cases hN : N % 2 = 0
  · rw [if_pos hN, if_neg (by omega)]
  · rw [if_neg hN, if_pos (by omega)]

theorem cast_gap {m n : Nat} (h : m ≠ n) : (1 : ℚ) ≤ |(m : ℚ) - n| := by
  rcases Nat.lt_or_gt_of_ne h with h | h
  · have : (m : ℚ) + 1 ≤ n := by exact_mod_cast h
    rw [abs_sub_comm]
    exact le_trans (by linarith) (le_abs_self _)
  · have : (n : ℚ) + 1 ≤ m := by exact_mod_cast h
    exact le_trans (by linarith) (le_abs_self _)

theorem even_near (B S m : Nat) (hS : 0 < S) : |(even B S : ℚ) - (B : ℚ) / S| ≤ |(m : ℚ) - (B : ℚ) / S| := by
  by_cases h : m = even B S
  · rw [h]
  · have h1 := even_half B S hS
    have h2 := cast_gap h
    have h3 := abs_sub_le (m : ℚ) ((B : ℚ) / S) (even B S)
    rw [abs_sub_comm ((B : ℚ) / S)] at h3
    linarith

/-- Without a tie it is the only one. -/
theorem even_only (B S m : Nat) (hS : 0 < S) (ht : ∀ N : Nat, (B : ℚ) / S ≠ N + 1 / 2)
    (h : |(m : ℚ) - (B : ℚ) / S| = |(even B S : ℚ) - (B : ℚ) / S|) : m = even B S := by
  refine Classical.byContradiction fun hne => ?_
  have h1 := even_half B S hS
  have h2 := cast_gap hne
  have h3 := abs_sub_le (m : ℚ) ((B : ℚ) / S) (even B S)
  rw [abs_sub_comm ((B : ℚ) / S)] at h3
  have h4 : |(even B S : ℚ) - (B : ℚ) / S| = 1 / 2 := by linarith
  have hS' : (0 : ℚ) < S := by exact_mod_cast hS
  have h5 : (0 : ℚ) ≤ (B : ℚ) / S := by positivity
  rcases abs_eq (by norm_num : (0 : ℚ) ≤ 1 / 2) |>.1 h4 with h6 | h6
  · have h7 : 0 < even B S := by
      rcases Nat.eq_zero_or_pos (even B S) with h0 | h0
      · rw [h0] at h6; push_cast at h6; linarith
      · exact h0
    refine ht (even B S - 1) ?_
    have : ((even B S - 1 : Nat) : ℚ) = even B S - 1 := by
      rw [Nat.cast_sub h7]; simp
    rw [this]; linarith
  · exact ht (even B S) (by linarith)

/-- The value of a scaled number. -/
theorem scale_val (p q : Nat) (hp : 0 < p) (hq : 0 < q) :
    (p : ℚ) / q = ((scale p q).1 : ℚ) / (scale p q).2.1 * (10 : ℚ) ^ (scale p q).2.2 := by
  have hq' : (q : ℚ) ≠ 0 := by exact_mod_cast Nat.ne_of_gt hq
  obtain ⟨-, -, -, ⟨k, h⟩ | ⟨j, h⟩⟩ := scale_spec p q hp hq
  · rw [h]
    simp only [zpow_natCast]
    push_cast
    have : (10 : ℚ) ^ k ≠ 0 := by positivity
    field_simp
  · rw [h]
    simp only [zpow_neg, zpow_natCast]
    push_cast
    have : (10 : ℚ) ^ j ≠ 0 := by positivity
    field_simp

theorem digits_closest (b S : Nat) (k : ℤ) (f n : Nat) (e : ℤ) (hS : 0 < S) (h1 : S ≤ b) (h2 : b < 10 * S)
    (hn1 : 10 ^ f ≤ n) (hn2 : n < 10 ^ (f + 1))
    (hne : (n : ℚ) * 10 ^ (e - f) = (even (b * 10 ^ f) S : ℚ) * 10 ^ (k - f))
    : Near ((b : ℚ) / S * 10 ^ k) f n e ∧ (¬ Tie ((b : ℚ) / S * 10 ^ k) f → Closest ((b : ℚ) / S * 10 ^ k) f n e) := by
  have hS' : (0 : ℚ) < S := by exact_mod_cast hS
  have hx : (b : ℚ) / S * 10 ^ k = ((b * 10 ^ f : Nat) : ℚ) / S * 10 ^ (k - f) := by
    have : (10 : ℚ) ^ k = 10 ^ f * 10 ^ (k - f) := by
      rw [← zpow_natCast, ← zpow_add₀ (by norm_num)]
      congr 1; ring
    rw [this]; push_cast; ring
  have hu : (0 : ℚ) < 10 ^ (k - f) := by positivity
  rw [hx]
  have hy1 : (10 ^ f : ℚ) ≤ ((b * 10 ^ f : Nat) : ℚ) / S := by
    rw [le_div_iff₀ hS']
    have : (S : ℚ) ≤ b := by exact_mod_cast h1
    push_cast
    rw [mul_comm]
    exact mul_le_mul_of_nonneg_right this (by positivity)
  have hy2 : ((b * 10 ^ f : Nat) : ℚ) / S < 10 ^ (f + 1) := by
    rw [div_lt_iff₀ hS']
    have : (b : ℚ) < 10 * S := by exact_mod_cast h2
    push_cast
    rw [pow_succ, mul_assoc, mul_comm (b : ℚ)]
    exact mul_lt_mul_of_pos_left this (by positivity)
  generalize hB : b * 10 ^ f = B at *
  have hnt : ¬ Tie ((B : ℚ) / S * 10 ^ (k - f)) f → ∀ N : Nat, (B : ℚ) / S ≠ N + 1 / 2 := by
    intro ht N hN
    refine ht ⟨N, k, ?_, ?_, by rw [hN]⟩
    · rw [hN] at hy1
      have : (10 ^ f : ℚ) < (N + 1 : Nat) := by push_cast; linarith
      have : (10 ^ f : Nat) < N + 1 := by exact_mod_cast this
      omega
    · rw [hN] at hy2
      have : (N : ℚ) < (10 ^ (f + 1) : Nat) := by push_cast; linarith
      exact_mod_cast this
  suffices H : ∀ (m : Nat) (d : ℤ), 10 ^ f ≤ m → m < 10 ^ (f + 1) →
      |(n : ℚ) * 10 ^ (e - f) - (B : ℚ) / S * 10 ^ (k - f)| ≤ |(m : ℚ) * 10 ^ (d - f) - (B : ℚ) / S * 10 ^ (k - f)| ∧
      (¬ Tie ((B : ℚ) / S * 10 ^ (k - f)) f →
        |(m : ℚ) * 10 ^ (d - f) - (B : ℚ) / S * 10 ^ (k - f)| = |(n : ℚ) * 10 ^ (e - f) - (B : ℚ) / S * 10 ^ (k - f)| →
        (m : ℚ) * 10 ^ (d - f) ≤ (n : ℚ) * 10 ^ (e - f)) from
    ⟨⟨hn1, hn2, fun m d a b => (H m d a b).1⟩, fun ht => ⟨⟨hn1, hn2, fun m d a b => (H m d a b).1⟩,
      fun m d a b => (H m d a b).2 ht⟩⟩
  intro m d hm1 hm2
  rw [hne]
  have hm : (m : ℚ) * 10 ^ (d - f) = (m : ℚ) * 10 ^ (d - k) * 10 ^ (k - f) := by
    rw [mul_assoc, ← zpow_add₀ (by norm_num)]
    congr 2; ring
  rw [hm, ← sub_mul, ← sub_mul, abs_mul, abs_mul, abs_of_pos hu]
  have near := fun m => even_near B S m hS
  by_cases hd : k ≤ d
  · obtain ⟨c, hc⟩ := Int.eq_ofNat_of_zero_le (sub_nonneg.2 hd)
    have hM : (m : ℚ) * 10 ^ (d - k) = ((m * 10 ^ c : Nat) : ℚ) := by
      rw [hc]; push_cast; rw [zpow_natCast]
    rw [hM]
    refine ⟨mul_le_mul_of_nonneg_right (near _) hu.le, fun ht heq => ?_⟩
    have := even_only B S _ hS (hnt ht) (mul_right_cancel₀ hu.ne' heq)
    rw [this]
  · have hd' : d - k ≤ -1 := by omega
    have hlt : (m : ℚ) * 10 ^ (d - k) < 10 ^ f := by
      have h3 : (10 : ℚ) ^ (d - k) ≤ 10 ^ (-1 : ℤ) := zpow_le_zpow_right₀ (by norm_num) hd'
      have h4 : (m : ℚ) < 10 ^ (f + 1) := by exact_mod_cast hm2
      have h5 : (0 : ℚ) < 10 ^ (d - k) := by positivity
      calc (m : ℚ) * 10 ^ (d - k) < 10 ^ (f + 1) * 10 ^ (d - k) := mul_lt_mul_of_pos_right h4 h5
        _ ≤ 10 ^ (f + 1) * 10 ^ (-1 : ℤ) := mul_le_mul_of_nonneg_left h3 (by positivity)
        _ = 10 ^ f := by rw [pow_succ, zpow_neg_one]; field_simp
    have hf := near (10 ^ f)
    push_cast at hf
    rw [abs_of_nonpos (by linarith : (10 : ℚ) ^ f - (B : ℚ) / S ≤ 0)] at hf
    have hlt2 : |(even B S : ℚ) - (B : ℚ) / S| < |(m : ℚ) * 10 ^ (d - k) - (B : ℚ) / S| := by
      rw [abs_of_nonpos (by linarith : (m : ℚ) * 10 ^ (d - k) - (B : ℚ) / S ≤ 0)]
      linarith
    refine ⟨mul_le_mul_of_nonneg_right hlt2.le hu.le, fun ht heq => ?_⟩
    have := mul_right_cancel₀ hu.ne' heq
    linarith

/-- The exponent of a scaled number in the range. -/
theorem scale_range (p q : Nat) (hp : 0 < p) (hq : 0 < q) (r1 : q ≤ p * 10 ^ 400) (r2 : p < q * 10 ^ 400) :
    -401 ≤ (scale p q).2.2 ∧ (scale p q).2.2 < 400 := by
  obtain ⟨s1, s2, s3, ⟨k, h⟩ | ⟨j, h⟩⟩ := scale_spec p q hp hq
  · rw [h] at s2 ⊢
    simp only at s2 ⊢
    refine ⟨by omega, ?_⟩
    have h1 : q * 10 ^ k < q * 10 ^ 400 := Nat.lt_of_le_of_lt s2 r2
    have h2 : 10 ^ k < 10 ^ 400 := Nat.lt_of_mul_lt_mul_left h1
    have := (Nat.pow_lt_pow_iff_right (by omega : 1 < 10)).1 h2
    omega
  · rw [h] at s3 ⊢
    simp only at s3 ⊢
    refine ⟨?_, by omega⟩
    have h1 : p * 10 ^ j < p * 10 ^ 401 := by
      refine Nat.lt_of_lt_of_le s3 ?_
      rw [show (401 : Nat) = 400 + 1 from rfl, Nat.pow_succ, ← Nat.mul_assoc, Nat.mul_comm 10]
      exact Nat.mul_le_mul_right _ r1
    have h2 : 10 ^ j < 10 ^ 401 := Nat.lt_of_mul_lt_mul_left h1
    have := (Nat.pow_lt_pow_iff_right (by omega : 1 < 10)).1 h2
    omega

/-- Mode 2: the digits, and that the number they stand for is the closest. -/
theorem dtoa2_spec (p q f : Nat) (hp : 0 < p) (hq : 0 < q) :
    ∃ ds : List Nat, ∃ nv : ℤ, dtoa2 p q (f + 1) = (ds, nv) ∧ (∀ d ∈ ds, d < 10) ∧
      (∃ x, ds.head? = some x ∧ x ≠ 0) ∧ ds.length ≤ f + 1 ∧
      Near ((p : ℚ) / q) f (val ds * 10 ^ (f + 1 - ds.length)) (nv - 1) ∧
      (¬ Tie ((p : ℚ) / q) f → Closest ((p : ℚ) / q) f (val ds * 10 ^ (f + 1 - ds.length)) (nv - 1)) ∧
      (q ≤ p * 10 ^ 400 → p < q * 10 ^ 400 → -400 ≤ nv ∧ nv ≤ 401) := by
  obtain ⟨s1, s2, s3, -⟩ := scale_spec p q hp hq
  have hv := scale_val p q hp hq
  have hr := scale_range p q hp hq
  have hd : dtoa2 p q (f + 1) = digits (scale p q).1 (scale p q).2.1 (scale p q).2.2 (f + 1) := by
    unfold dtoa2
    rw [if_neg (by omega : ¬ p = 0), if_neg (by omega : ¬ f + 1 = 0)]
  rw [hd, hv]
  generalize (scale p q).1 = b at *
  generalize (scale p q).2.1 = S at *
  generalize (scale p q).2.2 = k at *
  obtain ⟨ds, c, e1, e2, e3, ⟨x, e4, e4'⟩, e5, e6⟩ := digits_spec b S k f s1 s2 s3
  have hlen : 0 < ds.length := by cases ds with
    | nil => cases e4
    | cons => simp
  have hlo : 10 ^ f ≤ val ds * 10 ^ (f + 1 - ds.length) := by
    have := Nat.mul_le_mul_right (10 ^ (f + 1 - ds.length)) (val_ge e4 e4')
    rwa [← Nat.pow_add, show ds.length - 1 + (f + 1 - ds.length) = f by omega] at this
  have hhi : val ds * 10 ^ (f + 1 - ds.length) < 10 ^ (f + 1) := by
    have := Nat.mul_lt_mul_of_pos_right (val_lt e3) (Nat.pow_pos (n := f + 1 - ds.length) (by omega : 0 < 10))
    rwa [← Nat.pow_add, show ds.length + (f + 1 - ds.length) = f + 1 by omega] at this
  have hc := digits_closest b S k f _ (k + 1 + c - 1) s1 s2 s3 hlo hhi (by
    rw [← e6, show f + 1 + c - ds.length = f + 1 - ds.length + c by omega, Nat.pow_add,
      show k + 1 + (c : ℤ) - 1 - f = c + (k - f) by ring, zpow_add₀ (by norm_num), zpow_natCast]
    push_cast
    ring)
  refine ⟨ds, _, e1, e3, ⟨x, e4, e4'⟩, e5, hc.1, hc.2, fun r1 r2 => ?_⟩
  have := hr r1 r2
  have : c = 0 ∨ c = 1 := by rcases e2 with h | h; exact Or.inl h; exact Or.inr h.1
  omega

theorem cancel_fixed (p q f n : Nat) (hq : 0 < q) :
    (n : ℚ) / 10 ^ f - (p : ℚ) / q = ((n : ℚ) - ((p * 10 ^ f : Nat) : ℚ) / q) / 10 ^ f := by
  have hq' : (q : ℚ) ≠ 0 := by exact_mod_cast Nat.ne_of_gt hq
  have : (10 : ℚ) ^ f ≠ 0 := by positivity
  push_cast
  field_simp

theorem even_fixed (p q f : Nat) (hq : 0 < q) :
    NearFixed ((p : ℚ) / q) f (even (p * 10 ^ f) q) ∧
    (¬ FixedTie ((p : ℚ) / q) f → Nearest ((p : ℚ) / q) f (even (p * 10 ^ f) q)) := by
  have hpos : (0 : ℚ) < 10 ^ f := by positivity
  have hn : NearFixed ((p : ℚ) / q) f (even (p * 10 ^ f) q) := by
    intro m
    rw [cancel_fixed p q f _ hq, cancel_fixed p q f _ hq, abs_div, abs_div]
    exact div_le_div_of_nonneg_right (even_near _ _ m hq) (abs_nonneg _)
  refine ⟨hn, fun ht => ⟨hn, fun m hm => ?_⟩⟩
  rw [cancel_fixed p q f _ hq, cancel_fixed p q f _ hq, abs_div, abs_div,
    div_left_inj' (by rw [abs_of_pos hpos]; exact hpos.ne')] at hm
  refine Nat.le_of_eq (even_only _ _ m hq (fun N hN => ht ⟨N, ?_⟩) hm)
  rw [← hN]
  push_cast
  have hq' : (q : ℚ) ≠ 0 := by exact_mod_cast Nat.ne_of_gt hq
  field_simp

theorem even_fixed_tie (p q f N : Nat) (hq : 0 < q) (h : (p : ℚ) / q = ((N : ℚ) + 1 / 2) / 10 ^ f) :
    even (p * 10 ^ f) q = if N % 2 = 0 then N else N + 1 := by
  refine even_tie _ _ _ hq ?_
  have hpos : (10 : ℚ) ^ f ≠ 0 := by positivity
  rw [eq_div_iff hpos] at h
  rw [← h]
  push_cast
  ring

/-- Mode 3: the digits are those of the rounded number. -/
theorem dtoa3_spec (p q f : Nat) (hp : 0 < p) (hq : 0 < q) :
    ∃ ds : List Nat, ∃ nv : ℤ, dtoa3 p q f = (ds, nv) ∧ (∀ d ∈ ds, d < 10) ∧
      (ds = [] ∧ nv = -(f : ℤ) ∧ even (p * 10 ^ f) q = 0 ∨
       (∃ x, ds.head? = some x ∧ x ≠ 0) ∧ (ds.length : ℤ) ≤ f + nv ∧
        val ds * 10 ^ (f + nv - ds.length).toNat = even (p * 10 ^ f) q) ∧
      (p < q * 10 ^ 21 → nv ≤ 22) := by
  obtain ⟨s1, s2, s3, s4⟩ := scale_spec p q hp hq
  unfold dtoa3
  rw [if_neg (by omega : ¬ p = 0)]
  simp only
  -- the rounded number by the scaled one
  have hev : ∀ n : Nat, (n : ℤ) = f + (scale p q).2.2 →
      even ((scale p q).1 * 10 ^ n) (scale p q).2.1 = even (p * 10 ^ f) q := by
    intro n hn
    rcases s4 with ⟨k, h⟩ | ⟨j, h⟩
    · rw [h] at hn ⊢
      simp only at hn ⊢
      rw [show n = f + k by omega, Nat.pow_add, ← Nat.mul_assoc, Nat.mul_comm _ (10 ^ k), Nat.mul_comm q]
      exact even_mul (Nat.pow_pos (by omega)) _ _
    · rw [h] at hn ⊢
      simp only at hn ⊢
      rw [Nat.mul_assoc, ← Nat.pow_add, show j + n = f by omega]
  have hk : p < q * 10 ^ 21 → (scale p q).2.2 < 21 := by
    intro r
    rcases s4 with ⟨k, h⟩ | ⟨j, h⟩
    · rw [h] at s2 ⊢
      simp only at s2 ⊢
      have h1 : q * 10 ^ k < q * 10 ^ 21 := Nat.lt_of_le_of_lt s2 r
      have := (Nat.pow_lt_pow_iff_right (by omega : 1 < 10)).1 (Nat.lt_of_mul_lt_mul_left h1)
      omega
    · rw [h]; simp only; omega
  by_cases h1 : (f : ℤ) + (scale p q).2.2 + 1 < 0
  · rw [if_pos h1]
    refine ⟨[], _, rfl, by simp, Or.inl ⟨rfl, rfl, ?_⟩, by omega⟩
    rcases s4 with ⟨k, h⟩ | ⟨j, h⟩
    · rw [h] at h1; simp only at h1; omega
    · rw [h] at h1 s3
      simp only at h1 s3
      have hj : j = f + (j - f - 2) + 2 := by omega
      have : p * 10 ^ f * 100 < 10 * q := by
        refine Nat.lt_of_le_of_lt ?_ s3
        rw [hj, Nat.pow_add, Nat.pow_add, ← Nat.mul_assoc, ← Nat.mul_assoc]
        exact Nat.mul_le_mul_right _ (Nat.le_mul_of_pos_right _ (Nat.pow_pos (by omega)))
      have hlt : p * 10 ^ f < q := by omega
      unfold even
      rw [Nat.mod_eq_of_lt hlt, Nat.div_eq_of_lt hlt, if_neg (by omega)]
  · rw [if_neg h1]
    by_cases h2 : (f : ℤ) + (scale p q).2.2 + 1 = 0
    · rw [if_pos h2]
      rcases s4 with ⟨k, h⟩ | ⟨j, h⟩
      · rw [h] at h2; simp only at h2; omega
      · rw [h] at h2 s2 s3 ⊢
        simp only at h2 s2 s3 ⊢
        have hj : j = f + 1 := by omega
        subst hj
        rw [Nat.pow_succ, ← Nat.mul_assoc] at s2 s3 ⊢
        have hlt : p * 10 ^ f < q := by omega
        by_cases h3 : p * 10 ^ f * 10 ≤ 5 * q
        · rw [if_pos h3]
          refine ⟨[], _, rfl, by simp, Or.inl ⟨rfl, rfl, ?_⟩, by omega⟩
          unfold even
          rw [Nat.mod_eq_of_lt hlt, Nat.div_eq_of_lt hlt, if_neg (by omega)]
        · rw [if_neg h3]
          refine ⟨[1], _, rfl, by simp, Or.inr ⟨⟨1, rfl, by omega⟩, by simp; omega, ?_⟩, by omega⟩
          unfold even
          rw [Nat.mod_eq_of_lt hlt, Nat.div_eq_of_lt hlt, if_pos (by omega)]
          rw [show ((f : ℤ) + (-((f + 1 : Nat) : ℤ) + 2) - (([1] : List Nat).length : Nat)).toNat = 0 by simp; omega]
          simp [val]
    · rw [if_neg h2]
      obtain ⟨n, hn⟩ : ∃ n : Nat, (f : ℤ) + (scale p q).2.2 = n := ⟨_, (Int.toNat_of_nonneg (by omega)).symm⟩
      rw [show ((f : ℤ) + (scale p q).2.2 + 1).toNat = n + 1 by omega]
      obtain ⟨ds, c, e1, e2, e3, e4, e5, e6⟩ := digits_spec _ _ (scale p q).2.2 n s1 s2 s3
      refine ⟨ds, _, e1, e3, Or.inr ⟨e4, by omega, ?_⟩, fun r => ?_⟩
      · rw [← hev n hn.symm, ← e6]
        congr 2
        omega
      · have := hk r
        have : c = 0 ∨ c = 1 := by rcases e2 with h | h; exact Or.inl h; exact Or.inr h.1
        omega

end Verif.NumText
