import Verif.Spec.NumConv
/-
Lemmas on the conversion of numbers.
-/
namespace Verif.NumConv
open Spec

theorem den_pos (e : Int) : 0 < den e := Nat.pow_pos (by decide)

theorem cut_isTrunc (neg : Bool) (m : Nat) (e : Int) : IsTrunc (.fin neg m e) (cut neg m e) := by
  have h1 := Nat.div_mul_le_self (num m e) (den e)
  have h2 : num m e < num m e / den e * den e + den e := Nat.lt_div_mul_add (den_pos e)
  have h3 : (cut neg m e).natAbs = num m e / den e := by
    unfold cut; split
    · rw [Int.natAbs_neg, Int.natAbs_natCast]
    · rw [Int.natAbs_natCast]
  refine ⟨?_, ?_⟩
  · rw [h3]
    refine ⟨h1, ?_⟩
    rw [Nat.add_mul, Nat.one_mul]
    exact h2
  · unfold cut
    cases neg <;> simp <;> omega

theorem isTrunc_unique {x : Num} {t t' : Int} (h : IsTrunc x t) (h' : IsTrunc x t') : t = t' := by
  cases x with
  | nan => exact h.elim
  | inf => exact h.elim
  | fin neg m e =>
    obtain ⟨⟨h1, h2⟩, h3⟩ := h
    obtain ⟨⟨h1', h2'⟩, h3'⟩ := h'
    have hd : 0 < 2 ^ (-e).toNat := Nat.pow_pos (n := (-e).toNat) (by decide : 0 < 2)
    have e1 : t.natAbs < t'.natAbs + 1 := Nat.lt_of_mul_lt_mul_right (Nat.lt_of_le_of_lt h1 h2')
    have e2 : t'.natAbs < t.natAbs + 1 := Nat.lt_of_mul_lt_mul_right (Nat.lt_of_le_of_lt h1' h2)
    have e3 : t.natAbs = t'.natAbs := by omega
    cases neg <;> simp only [Bool.false_eq_true, if_false, if_true] at h3 h3' <;> omega

theorem pow_pos' (w : Nat) : (0 : Int) < 2 ^ w := Int.pow_pos (by decide)

theorem wrapU_modular (w : Nat) (t : Int) : Modular w 0 t (wrapU w t) := by
  have hw := pow_pos' w
  refine ⟨⟨-(t / 2 ^ w), ?_⟩, Int.emod_nonneg _ (by omega), by
    have := Int.emod_lt_of_pos t hw; unfold wrapU; omega⟩
  have := Int.emod_add_mul_ediv t (2 ^ w)
  unfold wrapU
  rw [Int.neg_mul, Int.mul_comm]
  omega

theorem wrapS_modular (w : Nat) (hw0 : 0 < w) (t : Int) :
    Modular w (-(2 ^ (w - 1))) t (wrapS w t) := by
  obtain ⟨⟨k, hk⟩, h1, h2⟩ := wrapU_modular w t
  have hw := pow_pos' w
  have hd : (2 : Int) ^ w = 2 * 2 ^ (w - 1) := by
    obtain ⟨v, rfl⟩ : ∃ v, w = v + 1 := ⟨w - 1, by omega⟩
    rw [Int.pow_succ]; simp; omega
  unfold wrapU at *
  unfold wrapS
  split
  · exact ⟨⟨k, hk⟩, by omega, by omega⟩
  · refine ⟨⟨k - 1, ?_⟩, by omega, by omega⟩
    rw [Int.sub_mul, hk]; omega

theorem modular_unique {w : Nat} {lo t r r' : Int} (h : Modular w lo t r) (h' : Modular w lo t r') :
    r = r' := by
  obtain ⟨⟨k, rfl⟩, h1, h2⟩ := h
  obtain ⟨⟨k', rfl⟩, h1', h2'⟩ := h'
  have hw := pow_pos' w
  have hlt : ∀ a b : Int, t + a * 2 ^ w < t + b * 2 ^ w + 2 ^ w → a < b + 1 := by
    intro a b h
    have : a * 2 ^ w < (b + 1) * 2 ^ w := by rw [Int.add_mul]; omega
    exact Int.lt_of_mul_lt_mul_right this (by omega)
  have e1 := hlt k k' (by omega)
  have e2 := hlt k' k (by omega)
  rw [show k = k' by omega]

theorem special_cut {neg : Bool} {m : Nat} {e : Int} (h : special (.fin neg m e) = true) :
    cut neg m e = 0 := by
  simp [special] at h
  subst h
  simp [cut, num]

theorem castInt64_eq {x : Num} {t : Int} (h : IsTrunc x t) (h1 : -(2 ^ 63) ≤ t) (h2 : t < 2 ^ 63) :
    castInt64 x = some t := by
  cases x with
  | nan => exact h.elim
  | inf => exact h.elim
  | fin neg m e =>
    obtain rfl := isTrunc_unique h (cut_isTrunc neg m e)
    exact if_pos ⟨h1, by omega⟩

/-- The conversions to signed and unsigned integers, for numbers within the range of 64 bits. -/
theorem toInt_spec {x : Num} {t : Int} (w : Nat) (hw : 0 < w) (h : IntOf x t)
    (h1 : -(2 ^ 63) ≤ t) (h2 : t < 2 ^ 63) :
    ∃ r, toInt w x = some r ∧ Modular w (-(2 ^ (w - 1))) t r := by
  cases x with
  | nan => cases h; exact ⟨0, rfl, ⟨0, by simp⟩, by have := pow_pos' (w - 1); omega, by
      have := (wrapS_modular w hw 0); simpa [wrapS, pow_pos' (w - 1)] using this.2.2⟩
  | inf => cases h; exact ⟨0, rfl, ⟨0, by simp⟩, by have := pow_pos' (w - 1); omega, by
      have := (wrapS_modular w hw 0); simpa [wrapS, pow_pos' (w - 1)] using this.2.2⟩
  | fin neg m e =>
    replace h : IsTrunc (.fin neg m e) t := h
    unfold toInt
    split
    · rename_i hs
      have : t = 0 := (isTrunc_unique h (cut_isTrunc neg m e)).trans (special_cut hs)
      subst this
      refine ⟨0, rfl, ⟨0, by simp⟩, by have := pow_pos' (w - 1); omega, by
        have := (wrapS_modular w hw 0); simpa [wrapS, pow_pos' (w - 1)] using this.2.2⟩
    · rw [castInt64_eq h h1 h2]
      exact ⟨_, rfl, wrapS_modular w hw t⟩

theorem toUint_spec {x : Num} {t : Int} (w : Nat) (h : IntOf x t)
    (h1 : -(2 ^ 63) ≤ t) (h2 : t < 2 ^ 63) :
    ∃ r, toUint w x = some r ∧ Modular w 0 t r := by
  cases x with
  | nan => cases h; exact ⟨0, rfl, ⟨0, by simp⟩, by omega, by have := pow_pos' w; omega⟩
  | inf => cases h; exact ⟨0, rfl, ⟨0, by simp⟩, by omega, by have := pow_pos' w; omega⟩
  | fin neg m e =>
    replace h : IsTrunc (.fin neg m e) t := h
    unfold toUint
    split
    · rename_i hs
      have : t = 0 := (isTrunc_unique h (cut_isTrunc neg m e)).trans (special_cut hs)
      subst this
      exact ⟨0, rfl, ⟨0, by simp⟩, by omega, by have := pow_pos' w; omega⟩
    · rw [castInt64_eq h h1 h2]
      exact ⟨_, rfl, wrapU_modular w t⟩

theorem castUint32_eq {x : Num} {t : Int} (h : IsTrunc x t) (h1 : 0 ≤ t) (h2 : t < 2 ^ 32) :
    castUint32 x = some t := by
  cases x with
  | nan => exact h.elim
  | inf => exact h.elim
  | fin neg m e =>
    obtain rfl := isTrunc_unique h (cut_isTrunc neg m e)
    exact if_pos ⟨h1, by omega⟩

/-! ### Bits -/

theorem bit_mod (z : Int) (i w : Nat) (h : i < w) : bit (z % 2 ^ w) i = bit z i := by
  unfold bit
  have e1 : (2 : Int) ^ w = 2 ^ i * (2 * 2 ^ (w - i - 1)) := by
    rw [show (2 : Int) * 2 ^ (w - i - 1) = 2 ^ (w - i - 1 + 1) by rw [Int.pow_succ, Int.mul_comm],
      ← Int.pow_add]
    congr 1; omega
  have e2 := Int.emod_add_mul_ediv z (2 ^ w)
  have e3 : z / 2 ^ i = z % 2 ^ w / 2 ^ i + 2 * (2 ^ (w - i - 1) * (z / 2 ^ w)) := by
    conv => lhs; rw [← e2]
    rw [show (2 : Int) ^ w * (z / 2 ^ w) = 2 ^ i * (2 * (2 ^ (w - i - 1) * (z / 2 ^ w))) by
      conv => lhs; arg 1; rw [e1]
      rw [Int.mul_assoc, Int.mul_assoc]]
    rw [Int.add_mul_ediv_left _ _ (by have := pow_pos' i; omega)]
  rw [e3, Int.add_mul_emod_self_left]

theorem bit_natCast (n i : Nat) : bit (n : Int) i = n.testBit i := by
  unfold bit
  rw [Nat.testBit_eq_decide_div_mod_eq]
  have : (n : Int) / 2 ^ i % 2 = ((n / 2 ^ i % 2 : Nat) : Int) := by simp
  rw [this]
  congr 1
  apply propext
  omega

theorem bit_bits (z : Int) (i : Nat) (h : i < 32) : (bits z).getLsbD i = bit z i := by
  rw [← bit_mod z i 32 h, BitVec.getLsbD, bits, BitVec.toNat_ofInt]
  rw [← bit_natCast]
  congr 1
  have := Int.emod_nonneg z (show ((2 ^ 32 : Nat) : Int) ≠ 0 by decide)
  rw [Int.toNat_of_nonneg this]
  rfl

/-- Reading the bits back. -/
theorem bit_toInt (b : BitVec 32) (i : Nat) (h : i < 32) : bit b.toInt i = b.getLsbD i := by
  have : bits b.toInt = b := BitVec.ofInt_toInt
  rw [← bit_bits _ i h, this]

theorem toInt_range (b : BitVec 32) : -(2 ^ 31) ≤ b.toInt ∧ b.toInt < 2 ^ 31 := by
  have h1 := BitVec.le_toInt b
  have h2 := BitVec.toInt_lt (x := b)
  exact ⟨h1, h2⟩

theorem modular_bit {w : Nat} {lo t r : Int} (h : Modular w lo t r) (i : Nat) (hi : i < w) :
    bit r i = bit t i := by
  obtain ⟨⟨k, rfl⟩, -⟩ := h
  rw [← bit_mod _ i w hi, ← bit_mod t i w hi, Int.add_mul_emod_self_right]

end Verif.NumConv
