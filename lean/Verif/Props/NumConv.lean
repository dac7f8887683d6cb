import Verif.Lemmas.NumConv
/-
C22, C61 and C62: conversions of numbers to integers, the integer operators, and the special
cases of exponentiation.
-/
namespace Verif.NumConv
open Spec

/-! ### C22 -/

/-- **C22 is violated**: `2 ^ 63` is converted with an undefined cast, where 0 should come out;
`-1 >>> 0` also is undefined, and so is `1 >>> 32`. -/
theorem C22_violated :
    toInt 32 (.fin false 1 63) = none ∧ IsTrunc (.fin false 1 63) (2 ^ 63) ∧
    Modular 32 (-(2 ^ 31)) (2 ^ 63) 0 ∧
    ushr (.fin true 1 0) (.fin false 0 0) = none ∧ ushr (.fin false 1 0) (.fin false 1 5) = none := by
  refine ⟨by decide +kernel, ?_, ⟨⟨-(2 ^ 31), by decide⟩, by decide, by decide⟩, by decide +kernel,
    by decide +kernel⟩
  simp [IsTrunc]

/-- **C22, partial** (the full claim has no bound on the number, and is violated without):
the signed conversions. -/
theorem C22_signed_partial (x : Num) (t : Int) (w : Nat) (hw : w = 8 ∨ w = 16 ∨ w = 32)
    (h : IntOf x t) (h1 : -(2 ^ 63) ≤ t) (h2 : t < 2 ^ 63) :
    ∃ r, toInt w x = some r ∧ Modular w (-(2 ^ (w - 1))) t r :=
  toInt_spec w (by omega) h h1 h2

/-- The unsigned conversions. -/
theorem C22_unsigned_partial (x : Num) (t : Int) (w : Nat) (hw : w = 8 ∨ w = 16 ∨ w = 32)
    (h : IntOf x t) (h1 : -(2 ^ 63) ≤ t) (h2 : t < 2 ^ 63) :
    ∃ r, toUint w x = some r ∧ Modular w 0 t r :=
  toUint_spec w h h1 h2

/-- Every number has an integer it starts from, and there is only one; so the two theorems above
speak about every number whose integer part fits. -/
theorem C22_integer (x : Num) : ∃ t, IntOf x t ∧ ∀ t', IntOf x t' → t' = t := by
  cases x with
  | nan => exact ⟨0, rfl, fun _ h => h⟩
  | inf => exact ⟨0, rfl, fun _ h => h⟩
  | fin neg m e => exact ⟨_, cut_isTrunc neg m e, fun t' h =>
      isTrunc_unique (x := .fin neg m e) h (cut_isTrunc neg m e)⟩

/-- **C22, partial**: `a >>> b` for `a` in the range of 32 bits without sign and `b` below 32. -/
theorem C22_shift_partial (a b : Num) (s t : Int) (ha : IsTrunc a s) (hb : IsTrunc b t)
    (hs : 0 ≤ s ∧ s < 2 ^ 32) (ht : 0 ≤ t ∧ t < 32) :
    ∃ u k, Modular 32 0 s u ∧ Modular 5 0 t k ∧ ushr a b = some (u / 2 ^ k.toNat) := by
  refine ⟨s, t, ⟨⟨0, by simp⟩, hs.1, by simpa using hs.2⟩, ⟨⟨0, by simp⟩, ht.1, by simpa using ht.2⟩, ?_⟩
  unfold ushr
  rw [castUint32_eq ha hs.1 hs.2, castUint32_eq hb ht.1 (by omega)]
  simp only
  rw [if_pos ht.2]

/-- `ToUint8Clamp`: the nearest number from 0 to 255, the even one of two; for all numbers. -/
theorem C22_clamp (x : Num) :
    match x with
    | .nan => toUint8Clamp x = 0
    | .inf neg => toUint8Clamp x = if neg then 0 else 255
    | .fin neg m e =>
      (neg = true → toUint8Clamp x = 0) ∧
      (neg = false → m * 2 ^ e.toNat ≥ 255 * 2 ^ (-e).toNat → toUint8Clamp x = 255) ∧
      (neg = false → m * 2 ^ e.toNat ≤ 255 * 2 ^ (-e).toNat → Nearest m e (toUint8Clamp x)) := by
  cases x with
  | nan => rfl
  | inf neg => rfl
  | fin neg m e =>
    have hd := den_pos e
    have k1 := Nat.div_mul_le_self (num m e) (den e)
    have k2 : num m e < num m e / den e * den e + den e := Nat.lt_div_mul_add hd
    simp only [toUint8Clamp]
    refine ⟨?_, ?_, ?_⟩
    · rintro rfl
      by_cases h0 : m = 0
      · subst h0
        simp [num]
      · simp [h0]
    · rintro rfl h
      simp only [Bool.false_and, Bool.false_eq_true, if_false]
      by_cases h5 : num m e > 255 * den e
      · rw [if_pos h5]
      · rw [if_neg h5]
        have he : num m e = 255 * den e := Nat.le_antisymm (Nat.le_of_not_lt h5) h
        have hq : num m e / den e = 255 := by rw [he]; exact Nat.mul_div_cancel _ hd
        rw [hq]
        rw [if_neg (by omega), if_pos (by omega)]
        rfl
    · rintro rfl h
      simp only [Bool.false_and, Bool.false_eq_true, if_false]
      rw [if_neg (by exact Nat.not_lt.2 h)]
      generalize hf : num m e / den e = f at *
      have en : ((m * 2 ^ e.toNat : Nat) : Int) = ((num m e : Nat) : Int) := rfl
      have ed : ((2 ^ (-e).toNat : Nat) : Int) = ((den e : Nat) : Int) := rfl
      unfold Nearest
      simp only [en, ed]
      have k1' : (f : Int) * den e ≤ num m e := by exact_mod_cast k1
      have k2' : (num m e : Int) < f * den e + den e := by exact_mod_cast k2
      have hd' : (0 : Int) < den e := by exact_mod_cast hd
      have c1 : ((2 * f + 1) * den e : Nat) = 2 * (f * den e) + den e := by
        rw [Nat.add_mul, Nat.mul_assoc, Nat.one_mul]
      have hfd : ((f * den e : Nat) : Int) = (f : Int) * den e := Int.natCast_mul ..
      rw [c1]
      have m1 : (2 * (f : Int) - 1) * den e = 2 * (f * den e) - den e := by
        rw [Int.sub_mul, Int.mul_assoc, Int.one_mul]
      have m2 : (2 * (f : Int) + 1) * den e = 2 * (f * den e) + den e := by
        rw [Int.add_mul, Int.mul_assoc, Int.one_mul]
      have m3 : (2 * ((f : Int) + 1) - 1) * den e = 2 * (f * den e) + den e := by
        rw [← m2]; congr 1; omega
      have m4 : (2 * ((f : Int) + 1) + 1) * den e = 2 * (f * den e) + 3 * den e := by
        rw [show 2 * ((f : Int) + 1) + 1 = 2 * f + 3 by omega, Int.add_mul, Int.mul_assoc]
      split
      · rw [m3, m4]; refine ⟨by omega, by omega, by omega⟩
      · split
        · rw [m1, m2]; refine ⟨by omega, by omega, by omega⟩
        · split
          · rw [m3, m4]; refine ⟨by omega, by omega, by omega⟩
          · rw [m1, m2]; refine ⟨by omega, by omega, by omega⟩

-- `-1.5` as 32 bits without sign: the integer is -1, the result `2 ^ 32 - 1`.
example : IntOf (.fin true 3 (-1)) (-1) ∧ toUint 32 (.fin true 3 (-1)) = some (2 ^ 32 - 1) ∧
    toInt 8 (.fin false 200 0) = some (-56) ∧ toUint8Clamp (.fin false 5 (-1)) = 2 ∧
    toUint8Clamp (.fin false 7 (-1)) = 4 ∧ ushr (.fin false 5 1) (.fin false 1 0) = some 5 := by
  refine ⟨?_, by decide +kernel, by decide +kernel, by decide +kernel, by decide +kernel, by decide +kernel⟩
  simp [IntOf, IsTrunc]

/-! ### C61 -/

/-- **C61 is violated** for numbers whose integer part does not fit into 64 bits:
`2 ** 64 | 0` is undefined. -/
theorem C61_violated : bbin (· ||| ·) (.fin false 1 64) (.fin false 0 0) = none := by decide +kernel

/-- The operands which the theorems below speak about: numbers with the integer `t`, which fits
into 64 bits. -/
def Fits (x : Num) (t : Int) : Prop := IntOf x t ∧ -(2 ^ 63) ≤ t ∧ t < 2 ^ 63

theorem toInt32_fits {x : Num} {t : Int} (h : Fits x t) :
    ∃ r, toInt 32 x = some r ∧ (∀ i, i < 32 → bit r i = bit t i) ∧ Modular 32 (-(2 ^ 31)) t r := by
  obtain ⟨r, h1, h2⟩ := toInt_spec 32 (by decide) h.1 h.2.1 h.2.2
  exact ⟨r, h1, fun i hi => modular_bit h2 i hi, h2⟩

/-- **C61, partial** (operands which fit into 64 bits): `&`, `|`, `^` work on the lowest 32 bits
of the integers, and the result is the 32 bit integer with these bits. -/
theorem C61_logic_partial (op : BitVec 32 → BitVec 32 → BitVec 32) (f : Bool → Bool → Bool)
    (hop : (op = (· &&& ·) ∧ f = and) ∨ (op = (· ||| ·) ∧ f = or) ∨ (op = (· ^^^ ·) ∧ f = xor))
    (a b : Num) (s t : Int) (ha : Fits a s) (hb : Fits b t) :
    ∃ r, bbin op a b = some r ∧ (∀ i, i < 32 → bit r i = f (bit s i) (bit t i)) ∧
      -(2 ^ 31) ≤ r ∧ r < 2 ^ 31 := by
  obtain ⟨r1, h1, b1, -⟩ := toInt32_fits ha
  obtain ⟨r2, h2, b2, -⟩ := toInt32_fits hb
  unfold bbin
  rw [h1, h2]
  refine ⟨_, rfl, ?_, toInt_range _⟩
  intro i hi
  rw [bit_toInt _ i hi, ← b1 i hi, ← b2 i hi, ← bit_bits _ i hi, ← bit_bits _ i hi]
  rcases hop with ⟨rfl, rfl⟩ | ⟨rfl, rfl⟩ | ⟨rfl, rfl⟩
  · exact BitVec.getLsbD_and
  · exact BitVec.getLsbD_or
  · exact BitVec.getLsbD_xor

/-- `~`. -/
theorem C61_not_partial (a : Num) (s : Int) (ha : Fits a s) :
    ∃ r, bnot a = some r ∧ (∀ i, i < 32 → bit r i = !bit s i) ∧ -(2 ^ 31) ≤ r ∧ r < 2 ^ 31 := by
  obtain ⟨r1, h1, b1, -⟩ := toInt32_fits ha
  unfold bnot
  rw [h1]
  refine ⟨_, rfl, ?_, toInt_range _⟩
  intro i hi
  rw [bit_toInt _ i hi, ← b1 i hi, ← bit_bits _ i hi]
  simp [hi]

theorem and31 (n : Nat) : n &&& 31 = n % 32 := Nat.and_two_pow_sub_one_eq_mod n 5

/-- `<<`: the integer times `2 ^ k`, where `k` is the second integer modulo 32, as a signed 32 bit
integer. -/
theorem C61_left_partial (a b : Num) (s t : Int) (ha : Fits a s) (hb : Fits b t) :
    ∃ r k, shl a b = some r ∧ Modular 5 0 t k ∧ Modular 32 (-(2 ^ 31)) (s * 2 ^ k.toNat) r := by
  obtain ⟨r1, h1, b1, m1⟩ := toInt32_fits ha
  obtain ⟨r2, h2, ⟨k2, m2⟩, m3, m4⟩ := toUint_spec 32 hb.1 hb.2.1 hb.2.2
  unfold shl
  rw [h1, h2]
  have hk : (r2.toNat &&& 31 : Nat) = (t % 32).toNat := by
    rw [and31]; omega
  refine ⟨_, t % 32, rfl, wrapU_modular 5 t, ?_⟩
  rw [hk]
  generalize (t % 32).toNat = k
  -- the bits as a number modulo `2 ^ 32`
  obtain ⟨⟨c, hc⟩, -⟩ := m1
  have hr := toInt_range (bits r1 <<< k)
  refine ⟨?_, by simpa using hr.1, by have := hr.2; omega⟩
  have e1 : ((bits r1 <<< k).toInt - s * 2 ^ k) % 2 ^ 32 = 0 := by
    have e2 : (bits r1 <<< k).toInt % 2 ^ 32 = (s * 2 ^ k) % 2 ^ 32 := by
      rw [BitVec.toInt_shiftLeft, Nat.shiftLeft_eq]
      have e3 : (((bits r1).toNat * 2 ^ k : Nat) : Int).bmod (2 ^ 32) % 2 ^ 32 =
          (((bits r1).toNat * 2 ^ k : Nat) : Int) % 2 ^ 32 := by
        exact Int.bmod_emod
      rw [e3]
      have e4 : ((bits r1).toNat : Int) = r1 % 2 ^ 32 := by
        rw [bits, BitVec.toNat_ofInt, Int.toNat_of_nonneg (Int.emod_nonneg _ (by decide))]
        rfl
      rw [Int.natCast_mul, e4, hc, Int.add_mul_emod_self_right, Int.natCast_pow]
      rw [Int.mul_emod, Int.emod_emod_of_dvd _ (Int.dvd_refl _), ← Int.mul_emod]
      rfl
    omega
  exact ⟨((bits r1 <<< k).toInt - s * 2 ^ k) / 2 ^ 32, by omega⟩

/-- `>>`: the 32 bit integer divided by `2 ^ k`, downwards. -/
theorem C61_right_partial (a b : Num) (s t : Int) (ha : Fits a s) (hb : Fits b t) :
    ∃ u k, Modular 32 (-(2 ^ 31)) s u ∧ Modular 5 0 t k ∧ sshr a b = some (u / 2 ^ k.toNat) := by
  obtain ⟨r1, h1, b1, m1⟩ := toInt32_fits ha
  obtain ⟨r2, h2, ⟨k2, m2⟩, m3, m4⟩ := toUint_spec 32 hb.1 hb.2.1 hb.2.2
  refine ⟨r1, t % 32, m1, wrapU_modular 5 t, ?_⟩
  unfold sshr
  rw [h1, h2]
  have hk : (r2.toNat &&& 31 : Nat) = (t % 32).toNat := by
    rw [and31]; omega
  simp only [Option.some.injEq]
  rw [hk, BitVec.toInt_sshiftRight, Int.shiftRight_eq_div_pow]
  have : (bits r1).toInt = r1 := by
    rw [bits, BitVec.toInt_ofInt]
    obtain ⟨-, m5, m6⟩ := m1
    exact Int.bmod_eq_of_le (by simpa using m5) (by simp; omega)
  rw [this]
  congr 1

-- `-5.5 << 33`, `-5.5 >> 33`, `-5.5 & 6`.
example : Fits (.fin true 11 (-1)) (-5) ∧ shl (.fin true 11 (-1)) (.fin false 33 0) = some (-10) ∧
    sshr (.fin true 11 (-1)) (.fin false 33 0) = some (-3) ∧
    bbin (· &&& ·) (.fin true 11 (-1)) (.fin false 6 0) = some 2 := by
  refine ⟨⟨?_, by decide, by decide⟩, by decide +kernel, by decide +kernel, by decide +kernel⟩
  simp [IntOf, IsTrunc]

/-! ### C62 -/

/-- **C62 is violated**: the parity of an exponent of `2 ^ 63` or more is found with an undefined
cast, as in `(-Infinity) ** (2 ** 63)`. -/
theorem C62_violated (pow : Num → Num → Num) : expo pow (.inf true) (.fin false 1 63) = none ∧
    expo pow (.fin true 0 0) (.fin true 1 64) = none := by
  constructor
  · simp [expo, isZero, isOdd, isIntegral, castInt64, cast, cut, num, den]
  · simp [expo, isZero, isOdd, isIntegral, castInt64, cast, cut, num, den, signbit]

/-- The parity test is right for exponents which fit. -/
theorem isOdd_spec (x : Num) (h : ∀ t, IsTrunc x t → -(2 ^ 63) ≤ t ∧ t < 2 ^ 63) :
    ∃ o, isOdd x = some o ∧ (o = true ↔ Odd x) := by
  cases x with
  | nan => exact ⟨false, rfl, by simp [Odd]⟩
  | inf => exact ⟨false, rfl, by simp [Odd]⟩
  | fin neg m e =>
    obtain ⟨h1, h2⟩ := h _ (cut_isTrunc neg m e)
    have hd := den_pos e
    unfold isOdd isIntegral
    simp only
    split
    · rename_i hi
      simp only [beq_iff_eq] at hi
      rw [castInt64_eq (cut_isTrunc neg m e) h1 h2]
      refine ⟨_, rfl, ?_⟩
      simp only [beq_iff_eq]
      have hodd : cut neg m e % 2 = 1 ↔ num m e / den e % 2 = 1 := by
        unfold cut; split <;> omega
      rw [hodd]
      constructor
      · intro ho
        refine ⟨num m e / den e / 2, ?_⟩
        show num m e = _ * den e
        rw [← hi]
        congr 1
        rw [hi]
        omega
      · rintro ⟨k, hk⟩
        replace hk : num m e = (2 * k + 1) * den e := hk
        rw [hk, Nat.mul_div_cancel _ hd]
        omega
    · rename_i hi
      refine ⟨false, rfl, ?_⟩
      simp only [Bool.false_eq_true, false_iff]
      rintro ⟨k, hk⟩
      replace hk : num m e = (2 * k + 1) * den e := hk
      apply hi
      simp only [beq_iff_eq]
      rw [hk, Nat.mul_div_cancel _ hd]

/-- **C62, partial** (exponents which fit into 64 bits, or an operand for which the parity does not
matter): the result is as the standard says. -/
theorem C62_partial (pow : Num → Num → Num) (b x : Num)
    (h : ∀ t, IsTrunc x t → -(2 ^ 63) ≤ t ∧ t < 2 ^ 63) :
    ∃ r, expo pow b x = some r ∧ ExpSpec pow b x r := by
  obtain ⟨o, ho, hodd⟩ := isOdd_spec x h
  cases x with
  | nan =>
    refine ⟨.nan, by simp [expo], ?_⟩
    constructor <;> simp [Above, Below, EitherZero]
  | inf sx =>
    cases b with
    | nan =>
      refine ⟨.nan, by simp [expo, isZero], ?_⟩
      constructor <;> simp [EitherZero, IsZero, Big, AbsOne, Small]
    | inf sb =>
      cases sb <;> cases sx <;> cases o <;>
        refine ⟨_, by simp [expo, isZero, ho, isPos]; rfl, ?_⟩ <;>
        constructor <;> simp_all [Above, Below, EitherZero, Odd, IsZero, Big, AbsOne, Small, zero]
    | fin sb m e =>
      by_cases hm : m = 0
      · subst hm
        have hne : ¬ 0 = 2 ^ (-e).toNat := Nat.ne_of_lt (Nat.pow_pos (by decide))
        cases sb <;> cases sx <;> cases o <;>
          refine ⟨_, by simp [expo, isZero, ho, isPos, signbit]; rfl, ?_⟩ <;>
          constructor <;> simp_all [Above, Below, EitherZero, Odd, IsZero, Big, AbsOne, Small, zero]
      · have hg : absGt1 (.fin sb m e) = true ↔ m * 2 ^ e.toNat > 2 ^ (-e).toNat := by
          simp [absGt1, num, den]
        have he : absEq1 (.fin sb m e) = true ↔ m * 2 ^ e.toNat = 2 ^ (-e).toNat := by
          simp [absEq1, num, den]
        have hr : expo pow (.fin sb m e) (.inf sx) =
            some (if sx then (if absGt1 (.fin sb m e) then zero false
                else if absEq1 (.fin sb m e) then .nan else .inf false)
              else (if absGt1 (.fin sb m e) then .inf false
                else if absEq1 (.fin sb m e) then .nan else zero false)) := by
          cases sx <;> simp [expo, isZero, hm]
        refine ⟨_, hr, ?_⟩
        rcases Nat.lt_trichotomy (m * 2 ^ e.toNat) (2 ^ (-e).toNat) with hc | hc | hc
        · have g1 : absGt1 (.fin sb m e) = false := by
            rw [← Bool.not_eq_true, hg]; omega
          have g2 : absEq1 (.fin sb m e) = false := by
            rw [← Bool.not_eq_true, he]; omega
          rw [g1, g2]
          clear hr hg he g1 g2
          have h1 := Nat.lt_asymm hc
          have h2 := Nat.ne_of_lt hc
          cases sx <;> constructor <;>
            simp_all [EitherZero, Above, Below, IsZero, Big, AbsOne, Small, Odd, zero]
        · have g1 : absGt1 (.fin sb m e) = false := by
            rw [← Bool.not_eq_true, hg]; omega
          rw [g1, he.2 hc]
          clear hr hg he g1
          cases sx <;> constructor <;>
            simp_all [EitherZero, Above, Below, IsZero, Big, AbsOne, Small, Odd, zero]
        · rw [hg.2 hc]
          clear hr hg he
          have h1 := Nat.lt_asymm hc
          have h2 := Nat.ne_of_gt hc
          cases sx <;> constructor <;>
            simp_all [EitherZero, Above, Below, IsZero, Big, AbsOne, Small, Odd, zero]
  | fin sx mx ex =>
    by_cases hx : mx = 0
    · subst hx
      refine ⟨one, by simp [expo, isZero], ?_⟩
      constructor
      case finite =>
        rintro - ⟨s, m, e, h1, h2⟩
        simp only [Num.fin.injEq] at h1
        omega
      all_goals simp [Above, Below, EitherZero, one]
    · cases b with
      | nan =>
        refine ⟨.nan, by simp [expo, isZero, hx], ?_⟩
        constructor <;> simp [Above, Below, EitherZero, IsZero, Big, AbsOne, Small, hx]
      | inf sb =>
        cases sb <;> cases sx <;> cases o <;>
          refine ⟨_, by simp [expo, isZero, ho, isPos, hx]; rfl, ?_⟩ <;>
          constructor <;> simp_all [Above, Below, EitherZero, IsZero, Big, AbsOne, Small, zero]
      | fin sb m e =>
        by_cases hm : m = 0
        · subst hm
          cases sb <;> cases sx <;> cases o <;>
            refine ⟨_, by simp [expo, isZero, ho, isPos, hx, signbit]; rfl, ?_⟩ <;>
            constructor <;> simp_all [Above, Below, EitherZero, IsZero, Big, AbsOne, Small, zero]
        · refine ⟨pow (.fin sb m e) (.fin sx mx ex), by simp [expo, isZero, hx, hm], ?_⟩
          constructor <;> simp_all [Above, Below, EitherZero, IsZero, Big, AbsOne, Small, zero]

-- `(-0) ** -3 = -Infinity`, `(-Infinity) ** 0.5 = Infinity`, `(-1) ** Infinity = NaN`.
example (pow : Num → Num → Num) : expo pow (.fin true 0 0) (.fin true 3 0) = some (.inf true) ∧
    expo pow (.inf true) (.fin false 1 (-1)) = some (.inf false) ∧
    expo pow (.fin true 1 0) (.inf false) = some .nan := by
  refine ⟨?_, ?_, ?_⟩
  · simp [expo, isZero, isOdd, isIntegral, castInt64, cast, cut, num, den, signbit, isPos]
  · simp [expo, isZero, isOdd, isIntegral, num, den, isPos]
  · simp [expo, isZero, absGt1, absEq1, num, den]

end Verif.NumConv
