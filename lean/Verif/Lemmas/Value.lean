import Verif.Spec.Value
namespace Verif.Value
open Spec

theorem toNat_tag_or {t : Nat} (ht : t < 2 ^ 16) (x : W) (hx : x.toNat < 2 ^ 48) :
    (fromTag t ||| x).toNat = t * 2 ^ 48 + x.toNat := by
  unfold fromTag
  rw [BitVec.toNat_or, BitVec.toNat_shiftLeft, BitVec.toNat_ofNat]
  rw [Nat.mod_eq_of_lt (a := t) (by omega), Nat.shiftLeft_eq,
    Nat.mod_eq_of_lt (by omega), ← Nat.shiftLeft_eq]
  rw [← Nat.shiftLeft_add_eq_or_of_lt hx, Nat.shiftLeft_eq]

theorem getTag_nat (v : W) : getTag v = v.toNat / 2 ^ 48 := by
  unfold getTag
  rw [BitVec.toNat_and, BitVec.toNat_ushiftRight, Nat.shiftRight_eq_div_pow]
  have h := v.isLt
  rw [show (0xffff#64).toNat = 2 ^ 16 - 1 from rfl, Nat.and_two_pow_sub_one_eq_mod]
  apply Nat.mod_eq_of_lt
  rw [Nat.div_lt_iff_lt_mul (by decide)]
  omega

theorem getTag_or {t : Nat} (ht : t < 2 ^ 16) (x : W) (hx : x.toNat < 2 ^ 48) :
    getTag (fromTag t ||| x) = t := by
  rw [getTag_nat, toNat_tag_or ht x hx]
  omega

theorem low48 (v : W) : (v &&& 0xffffffffffff#64).toNat = v.toNat % 2 ^ 48 := by
  rw [BitVec.toNat_and, show (0xffffffffffff#64).toNat = 2 ^ 48 - 1 from rfl,
    Nat.and_two_pow_sub_one_eq_mod]

theorem getTag_pointer {t : Nat} (ht : t < 2 ^ 16) (p : W) : getTag (setPointer p t) = t :=
  getTag_or ht _ (by rw [low48]; exact Nat.mod_lt _ (by decide))

theorem low_or {t : Nat} (ht : t < 2 ^ 16) (x : W) (hx : x.toNat < 2 ^ 48) :
    ((fromTag t ||| x) &&& 0xffffffffffff#64) = x := by
  apply BitVec.eq_of_toNat_eq
  rw [low48, toNat_tag_or ht x hx]
  omega

theorem and47 (n : Nat) (h : n < 2 ^ 48) : n &&& 2 ^ 47 = if n < 2 ^ 47 then 0 else 2 ^ 47 := by
  apply Nat.eq_of_testBit_eq
  intro i
  rw [Nat.testBit_and, Nat.testBit_two_pow]
  by_cases hi : 47 = i
  · subst hi
    rw [Nat.testBit_eq_decide_div_mod_eq]
    split
    · simp; omega
    · rw [Nat.testBit_two_pow]; simp; omega
  · simp only [hi, decide_false, Bool.and_false]
    split
    · simp
    · rw [Nat.testBit_two_pow]; simp [hi]

theorem bit47 (x : W) (hx : x.toNat < 2 ^ 48) :
    ((x &&& 0x800000000000#64) != 0#64) = decide (2 ^ 47 ≤ x.toNat) := by
  have h : (x &&& 0x800000000000#64).toNat = if x.toNat < 2 ^ 47 then 0 else 2 ^ 47 := by
    rw [BitVec.toNat_and, show (0x800000000000#64).toNat = 2 ^ 47 from rfl, and47 _ hx]
  have h0 : ((x &&& 0x800000000000#64) = 0#64) ↔ x.toNat < 2 ^ 47 := by
    rw [← BitVec.toNat_inj, h]
    split
    · simp; omega
    · simp; omega
  by_cases hc : x.toNat < 2 ^ 47
  · rw [h0.2 hc]
    simp; omega
  · have : (x &&& 0x800000000000#64) ≠ 0#64 := fun e => hc (h0.1 e)
    rw [bne_iff_ne.2 this]
    simp; omega

theorem getPointer_set {t : Nat} (ht : t < 2 ^ 16) {p : W} (hp : Fits p) :
    getPointer (setPointer p t) = p := by
  have hlt : (p &&& 0xffffffffffff#64).toNat < 2 ^ 48 := by
    rw [low48]; exact Nat.mod_lt _ (by decide)
  unfold getPointer setPointer
  simp only
  rw [low_or ht _ hlt, bit47 _ hlt, low48]
  have h := p.isLt
  rcases hp with hp | hp
  · rw [if_neg (by simp; omega)]
    apply BitVec.eq_of_toNat_eq
    rw [low48]; omega
  · rw [if_pos (by simp; omega)]
    apply BitVec.eq_of_toNat_eq
    rw [BitVec.or_comm]
    have : (0xffff000000000000#64) = fromTag 0xffff := by decide +kernel
    rw [this, toNat_tag_or (by decide) _ hlt, low48]
    omega

theorem getBoolean_set (b : Bool) : getBoolean (setBoolean b) = b := by
  cases b <;> decide +kernel

theorem zext_lt (i : BitVec 32) : (i.zeroExtend 64).toNat = i.toNat := by
  have := i.isLt
  rw [BitVec.toNat_setWidth]
  omega

theorem getIndex_set (i : BitVec 32) : getIndex (setIndex i) = i := by
  have h := i.isLt
  apply BitVec.eq_of_toNat_eq
  unfold getIndex setIndex
  rw [BitVec.toNat_setWidth, toNat_tag_or (by decide) _ (by rw [zext_lt]; omega), zext_lt]
  omega

theorem getTag_index (i : BitVec 32) : getTag (setIndex i) = tIndexString :=
  getTag_or (by decide) _ (by rw [zext_lt]; have := i.isLt; omega)

/-- A number with one of the tags is a NaN with a payload. -/
theorem getType_number {b : W} (h : IsNaN b → DefaultNaN b) : getType b = .number := by
  have hb := b.isLt
  unfold IsNaN DefaultNaN at h
  have ht := getTag_nat b
  have h1 : getTag b ≠ tUndefined ∧ getTag b ≠ tNull ∧ getTag b ≠ tBoolean ∧ getTag b ≠ tString ∧
      getTag b ≠ tIndexString ∧ getTag b ≠ tSymbol ∧ getTag b ≠ tBigInt ∧ getTag b ≠ tObject ∧
      getTag b ≠ tGcThing := by
    simp only [tUndefined, tNull, tBoolean, tString, tIndexString, tSymbol, tBigInt, tObject, tGcThing]
    omega
  obtain ⟨a1, a2, a3, a4, a5, a6, a7, a8, a9⟩ := h1
  unfold getType
  simp only [a1, a2, a3, a4, a5, a6, a7, a8, a9, if_false]

end Verif.Value
