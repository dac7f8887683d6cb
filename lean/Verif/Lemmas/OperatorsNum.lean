import Verif.Spec.Operators
import Verif.Props.BigIntMore
/-
Lemmas for C87: values of numbers, `bi_set_number`, comparison.
-/
namespace Verif.Operators
open Verif.NumConv (Num num den)
open Verif.BigInt (BI base word val)

theorem den_pos (e : Int) : 0 < den e := Nat.pos_of_ne_zero (by simp [den])

theorem denQ_pos (e : Int) : (0 : Rat) < (den e : Rat) := by
  have := den_pos e
  exact_mod_cast this

theorem valQ_mul_den (neg : Bool) (m : Nat) (e : Int) :
    valQ neg m e * (den e : Rat) = (sgn neg (num m e) : Rat) := by
  have h : (m : Rat) * (2 : Rat) ^ e * (den e : Rat) = (num m e : Rat) := by
    unfold num den
    rcases Int.le_total 0 e with h | h
    · obtain ⟨k, rfl⟩ := Int.eq_ofNat_of_zero_le h
      have h1 : (-(k : Int)).toNat = 0 := by omega
      rw [h1]
      rw [Rat.zpow_natCast]
      simp [Rat.natCast_mul, Rat.natCast_pow]
    · obtain ⟨k, hk⟩ := Int.eq_ofNat_of_zero_le (a := -e) (by omega)
      have he : e = -(k : Int) := by omega
      subst he
      have h1 : (-(k : Int)).toNat = 0 := by omega
      rw [h1, Int.neg_neg, Int.toNat_natCast, Rat.zpow_neg, Rat.zpow_natCast]
      have h2 : ((2 : Rat) ^ k) ≠ 0 := by
        have : (0 : Rat) < 2 ^ k := Rat.pow_pos (by decide)
        grind
      rw [Rat.mul_assoc]
      have h3 : ((2 ^ k : Nat) : Rat) = (2 : Rat) ^ k := by simp [Rat.natCast_pow]
      rw [h3, Rat.inv_mul_cancel _ h2]
      simp
  unfold valQ sgn
  cases neg
  · simpa using h
  · have : (if true = true then -1 else 1 : Rat) * (m : Rat) * (2 : Rat) ^ e * (den e : Rat) =
        -((m : Rat) * (2 : Rat) ^ e * (den e : Rat)) := by
      simp only [if_true]; grind
    rw [this, h]
    simp

theorem valQ_lt (s1 : Bool) (m1 : Nat) (e1 : Int) (s2 : Bool) (m2 : Nat) (e2 : Int) :
    valQ s1 m1 e1 < valQ s2 m2 e2 ↔
      sgn s1 (num m1 e1) * den e2 < sgn s2 (num m2 e2) * den e1 := by
  rw [← Rat.mul_lt_mul_right (denQ_pos e1), ← Rat.mul_lt_mul_right (denQ_pos e2), valQ_mul_den]
  have : valQ s2 m2 e2 * (den e1 : Rat) * (den e2 : Rat) =
      valQ s2 m2 e2 * (den e2 : Rat) * (den e1 : Rat) := by grind
  rw [this, valQ_mul_den, ← Rat.intCast_lt_intCast, Rat.intCast_mul, Rat.intCast_mul,
    Rat.intCast_natCast, Rat.intCast_natCast]

theorem valQ_eq (s1 : Bool) (m1 : Nat) (e1 : Int) (s2 : Bool) (m2 : Nat) (e2 : Int) :
    valQ s1 m1 e1 = valQ s2 m2 e2 ↔
      sgn s1 (num m1 e1) * den e2 = sgn s2 (num m2 e2) * den e1 := by
  have h1 := valQ_lt s1 m1 e1 s2 m2 e2
  have h2 := valQ_lt s2 m2 e2 s1 m1 e1
  grind

theorem dlt_iff (a b : Num) : dlt a b = true ↔ (ext a).Lt (ext b) := by
  cases a with
  | nan => simp [dlt, ext, Ext.Lt]
  | inf s =>
    cases s <;> cases b with
    | nan => simp [dlt, ext, Ext.Lt]
    | inf t => cases t <;> simp [dlt, ext, Ext.Lt]
    | fin t m e => simp [dlt, ext, Ext.Lt]
  | fin s1 m1 e1 =>
    cases b with
    | nan => simp [dlt, ext, Ext.Lt]
    | inf t => cases t <;> simp [dlt, ext, Ext.Lt]
    | fin s2 m2 e2 => simp only [dlt, ext, Ext.Lt, decide_eq_true_eq, valQ_lt]

theorem deq_iff (a b : Num) : deq a b = true ↔ (ext a).Eq (ext b) := by
  cases a with
  | nan => simp [deq, ext, Ext.Eq]
  | inf s =>
    cases s <;> cases b with
    | nan => simp [deq, ext, Ext.Eq]
    | inf t => cases t <;> simp [deq, ext, Ext.Eq]
    | fin t m e => simp [deq, ext, Ext.Eq]
  | fin s1 m1 e1 =>
    cases b with
    | nan => simp [deq, ext, Ext.Eq]
    | inf t => cases t <;> simp [deq, ext, Ext.Eq]
    | fin s2 m2 e2 => simp only [deq, ext, Ext.Eq, decide_eq_true_eq, valQ_eq]

/-- What a four-valued result says about two values. -/
def CmpSpec (c : Cmp) (a b : Ext) : Prop :=
  (c = .less ↔ a.Lt b) ∧ (c = .equal ↔ a.Eq b) ∧ (c = .greater ↔ b.Lt a)

theorem Ext.lt_not_eq {a b : Ext} : a.Lt b → ¬ a.Eq b := by
  cases a <;> cases b <;> simp [Ext.Lt, Ext.Eq] <;> grind

theorem Ext.lt_not_lt {a b : Ext} : a.Lt b → ¬ b.Lt a := by
  cases a <;> cases b <;> simp [Ext.Lt] <;> grind

theorem Ext.eq_comm {a b : Ext} : a.Eq b ↔ b.Eq a := by
  cases a <;> cases b <;> simp [Ext.Eq] <;> grind

theorem Ext.total {a b : Ext} (ha : a ≠ .nan) (hb : b ≠ .nan) : a.Lt b ∨ a.Eq b ∨ b.Lt a := by
  cases a <;> cases b <;> simp_all [Ext.Lt, Ext.Eq] <;> grind

theorem CmpSpec.less {a b : Ext} (h : a.Lt b) : CmpSpec .less a b := by
  have h1 := Ext.lt_not_eq h
  have h2 := Ext.lt_not_lt h
  simp [CmpSpec, *]

theorem CmpSpec.equal {a b : Ext} (h : a.Eq b) : CmpSpec .equal a b := by
  have h1 : ¬ a.Lt b := fun h' => Ext.lt_not_eq h' h
  have h2 : ¬ b.Lt a := fun h' => Ext.lt_not_eq h' (Ext.eq_comm.mp h)
  simp [CmpSpec, *]

theorem CmpSpec.greater {a b : Ext} (h : b.Lt a) : CmpSpec .greater a b := by
  have h1 : ¬ a.Eq b := fun h' => Ext.lt_not_eq h (Ext.eq_comm.mp h')
  have h2 := Ext.lt_not_lt h
  simp [CmpSpec, *]

theorem CmpSpec.undef {a b : Ext} (h : a = .nan ∨ b = .nan) : CmpSpec .undefined a b := by
  rcases h with rfl | rfl
  · cases b <;> simp [CmpSpec, Ext.Lt, Ext.Eq]
  · cases a <;> simp [CmpSpec, Ext.Lt, Ext.Eq]

theorem CmpSpec.swap {c : Cmp} {a b : Ext} (h : CmpSpec c a b) : CmpSpec c.swap b a := by
  obtain ⟨h1, h2, h3⟩ := h
  rw [Ext.eq_comm] at h2
  cases c <;> simp_all [CmpSpec, Cmp.swap]

theorem CmpSpec.test {c : Cmp} {a b : Ext} (h : CmpSpec c a b) (r : Rel) :
    r.test c = true ↔ r.On a b := by
  obtain ⟨h1, h2, h3⟩ := h
  cases r <;> simp only [Rel.test, Rel.On, ← h1, ← h2, ← h3, Bool.or_eq_true, beq_iff_eq]

theorem isNan_iff (a : Num) : isNan a = true ↔ ext a = .nan := by
  cases a with
  | nan => simp [isNan, ext]
  | inf s => cases s <;> simp [isNan, ext]
  | fin => simp [isNan, ext]

theorem numCmp_spec (a b : Num) : CmpSpec (numCmp a b) (ext a) (ext b) := by
  unfold numCmp
  split
  · next h =>
    simp only [Bool.or_eq_true, isNan_iff] at h
    exact .undef h
  · next h =>
    simp only [Bool.or_eq_true, isNan_iff, not_or] at h
    split
    · next h1 => exact .equal ((deq_iff _ _).mp h1)
    · next h1 =>
      split
      · next h2 => exact .less ((dlt_iff _ _).mp h2)
      · next h2 =>
        rw [deq_iff] at h1
        rw [dlt_iff] at h2
        rcases Ext.total h.1 h.2 with h3 | h3 | h3
        · exact absurd h3 h2
        · exact absurd h3 h1
        · exact .greater h3

/-! ### `bi_set_number` -/

theorem lows_digits (m : Nat) (e : Int) : BigInt.Digits (lows m e) := by
  fun_induction lows with
  | case1 m e h ih =>
    intro d hd
    simp only [List.mem_cons] at hd
    rcases hd with rfl | hd
    · exact Nat.mod_lt _ (by decide)
    · exact ih _ hd
  | case2 => intro d hd; simp at hd

theorem lows_val (m : Nat) (e : Int) (h1 : 0 ≤ e → m < 2 ^ (e + 1).toNat) (h2 : e < 0 → m = 0) :
    val (lows m e) = m := by
  fun_induction lows with
  | case1 m e h ih =>
    rw [BigInt.val_cons, ih]
    · exact Nat.mod_add_div m base
    · intro h'
      have h3 := h1 h
      have : (e + 1).toNat = (e - 32 + 1).toNat + 32 := by omega
      rw [this, Nat.pow_add] at h3
      exact Nat.div_lt_of_lt_mul (by rw [Nat.mul_comm]; exact h3)
    · intro h'
      have h3 := h1 h
      have : 2 ^ (e + 1).toNat ≤ 2 ^ 32 := Nat.pow_le_pow_right (by decide) (by omega)
      exact Nat.div_eq_of_lt (by have : base = 2 ^ 32 := rfl; omega)
  | case2 m e h => rw [h2 (by omega)]; rfl

theorem mids_digits (m : Nat) (e : Int) : BigInt.Digits (mids m e) := by
  unfold mids
  split
  · intro d hd
    simp only [List.mem_cons] at hd
    rcases hd with rfl | hd
    · exact Nat.mod_lt _ (by decide)
    · exact lows_digits _ _ _ hd
  · split
    · exact lows_digits _ _
    · exact lows_digits _ _

theorem mids_val (m : Nat) (e : Int) (hm : m < 2 ^ 53) (h0 : 0 ≤ e) (h84 : e < 84) :
    val (mids m e) = if e ≥ 52 then m * 2 ^ (e - 52).toNat else m / 2 ^ (52 - e).toNat := by
  unfold mids
  split
  · next h =>
    rw [if_pos (by omega)]
    obtain ⟨s, hs⟩ := Int.eq_ofNat_of_zero_le (a := e - 52) (by omega)
    have he : e = 52 + s := by omega
    subst he
    have e1 : ((52 : Int) + s - 52).toNat = s := by omega
    have e2 : ((32 : Int) - (52 + s - 52)).toNat = 32 - s := by omega
    rw [e1, e2, BigInt.val_cons, lows_val]
    · have hw : word = base * base := rfl
      rw [hw, Nat.mod_mul_left_mod]
      have : m / 2 ^ (32 - s) = m * 2 ^ s / base := by
        have hb : base = 2 ^ (32 - s) * 2 ^ s := by
          rw [← Nat.pow_add]; have : 32 - s + s = 32 := by omega
          rw [this]
        rw [hb, Nat.mul_div_mul_right _ _ (Nat.pow_pos (by decide))]
      rw [this]
      exact Nat.mod_add_div _ _
    · intro _
      have : (52 + (s : Int) - 32 + 1).toNat = 21 + s := by omega
      rw [this]
      apply Nat.div_lt_of_lt_mul
      rw [← Nat.pow_add]
      have : 32 - s + (21 + s) = 53 := by omega
      rw [this]; exact hm
    · intro h'; omega
  · next h =>
    split
    · next h' =>
      rw [if_neg (by omega), lows_val]
      · intro _
        apply Nat.div_lt_of_lt_mul
        rw [← Nat.pow_add]
        have : (52 - e).toNat + (e + 1).toNat = 53 := by omega
        rw [this]; exact hm
      · intro h''; omega
    · next h' =>
      have : e = 52 := by omega
      subst this
      rw [if_pos (by omega), lows_val]
      · simp
      · intro _; exact hm
      · intro h''; omega

theorem highs_digits (m : Nat) (e : Int) : BigInt.Digits (highs m e) := by
  fun_induction highs with
  | case1 e h ih =>
    intro d hd
    simp only [List.mem_cons] at hd
    rcases hd with rfl | hd
    · decide
    · exact ih _ hd
  | case2 e h => exact mids_digits _ _

theorem highs_val (m : Nat) (e : Int) (hm : m < 2 ^ 53) (h0 : 0 ≤ e) :
    val (highs m e) = if e ≥ 52 then m * 2 ^ (e - 52).toNat else m / 2 ^ (52 - e).toNat := by
  fun_induction highs with
  | case1 e h ih =>
    rw [BigInt.val_cons, ih (by omega), if_pos (by omega), if_pos (by omega)]
    have : (e - 52).toNat = (e - 32 - 52).toNat + 32 := by omega
    rw [this, Nat.pow_add]
    have hb : base = 2 ^ 32 := rfl
    rw [hb, Nat.zero_add, Nat.mul_comm, Nat.mul_assoc]
  | case2 e h => exact mids_val m e hm h0 (by omega)

/-- At most 53 significant bits. -/
def Fits (v : Nat) : Prop := Nat.log2 v ≤ 52 ∨ 2 ^ (Nat.log2 v - 52) ∣ v

theorem setNumber_wf (neg : Bool) (v : Nat) : (setNumber neg v).WF := by
  unfold setNumber
  split
  · decide
  · exact BigInt.WF.strip (highs_digits _ _)

theorem setNumber_toInt (neg : Bool) (v : Nat) (h : Fits v) :
    (setNumber neg v).toInt = sgn neg v := by
  unfold setNumber
  split
  · next h0 => subst h0; cases neg <;> rfl
  · next h0 =>
    rw [BigInt.toInt_strip]
    have hlo := Nat.log2_self_le h0
    have hhi : v < 2 ^ (Nat.log2 v + 1) := Nat.lt_log2_self
    have hv : val (highs (if Nat.log2 v ≤ 52 then v * 2 ^ (52 - Nat.log2 v)
        else v / 2 ^ (Nat.log2 v - 52)) (Nat.log2 v : Int)) = v := by
      generalize hE : Nat.log2 v = E at *
      rw [highs_val _ _ _ (by omega)]
      · split
        · next h1 =>
          split
          · next h2 =>
            have : E = 52 := by omega
            subst this; simp
          · next h2 =>
            have e1 : ((E : Int) - 52).toNat = E - 52 := by omega
            rw [e1]
            rcases h with h | h
            · omega
            · rw [hE] at h; exact Nat.div_mul_cancel h
        · next h1 =>
          rw [if_pos (by omega)]
          have e1 : (52 - (E : Int)).toNat = 52 - E := by omega
          rw [e1, Nat.mul_div_cancel _ (Nat.pow_pos (by decide))]
      · split
        · next h1 =>
          have : 2 ^ 53 = 2 ^ (E + 1) * 2 ^ (52 - E) := by
            rw [← Nat.pow_add]; congr 1; omega
          rw [this]
          exact Nat.mul_lt_mul_of_pos_right hhi (Nat.pow_pos (by decide))
        · next h1 =>
          apply Nat.div_lt_of_lt_mul
          rw [← Nat.pow_add]
          have : E - 52 + 53 = E + 1 := by omega
          rw [this]; exact hhi
    unfold BI.toInt sgn
    rw [hv]

theorem trunc_fits (m : Nat) (e : Int) (hm : m < 2 ^ 53) : Fits (num m e / den e) := by
  unfold Fits num den
  rcases Int.le_total 0 e with h | h
  · obtain ⟨k, rfl⟩ := Int.eq_ofNat_of_zero_le h
    have h1 : (-(k : Int)).toNat = 0 := by omega
    rw [h1, Int.toNat_natCast, Nat.pow_zero, Nat.div_one]
    by_cases hz : m * 2 ^ k = 0
    · left; rw [hz]; decide
    · by_cases hE : Nat.log2 (m * 2 ^ k) ≤ 52
      · exact .inl hE
      · right
        have hlt : m * 2 ^ k < 2 ^ (53 + k) := by
          rw [Nat.pow_add]; exact Nat.mul_lt_mul_of_pos_right hm (Nat.pow_pos (by decide))
        have := (Nat.log2_lt hz).mpr hlt
        exact Nat.dvd_trans (Nat.pow_dvd_pow 2 (by omega)) (Nat.dvd_mul_left _ _)
  · left
    have h1 : e.toNat = 0 := by omega
    rw [h1, Nat.pow_zero, Nat.mul_one]
    have h2 : m / 2 ^ (-e).toNat < 2 ^ 53 := Nat.lt_of_le_of_lt (Nat.div_le_self _ _) hm
    by_cases hz : m / 2 ^ (-e).toNat = 0
    · rw [hz]; decide
    · have := (Nat.log2_lt hz).mpr h2; omega

theorem extB_lt_fin (x : BI) (s : Bool) (m : Nat) (e : Int) :
    (extB x).Lt (ext (.fin s m e)) ↔ x.toInt * den e < sgn s (num m e) := by
  simp only [extB, ext, Ext.Lt]
  rw [← Rat.mul_lt_mul_right (denQ_pos e), valQ_mul_den, ← Rat.intCast_lt_intCast, Rat.intCast_mul,
    Rat.intCast_natCast]

theorem fin_lt_extB (x : BI) (s : Bool) (m : Nat) (e : Int) :
    (ext (.fin s m e)).Lt (extB x) ↔ sgn s (num m e) < x.toInt * den e := by
  simp only [extB, ext, Ext.Lt]
  rw [← Rat.mul_lt_mul_right (denQ_pos e), valQ_mul_den, ← Rat.intCast_lt_intCast, Rat.intCast_mul,
    Rat.intCast_natCast]

theorem fin_eq_extB (x : BI) (s : Bool) (m : Nat) (e : Int) :
    (extB x).Eq (ext (.fin s m e)) ↔ x.toInt * den e = sgn s (num m e) := by
  have h1 := extB_lt_fin x s m e
  have h2 := fin_lt_extB x s m e
  simp only [extB, ext, Ext.Lt, Ext.Eq] at *
  grind

theorem compareNumber_spec {x : BI} (hx : x.WF) {n : Num} (hn : IsDouble n) :
    CmpSpec (compareNumber x n) (extB x) (ext n) := by
  cases n with
  | nan => exact .undef (.inr rfl)
  | inf s =>
    cases s
    · exact .less trivial
    · exact .greater trivial
  | fin s m e =>
    have hf := trunc_fits m e hn
    have hT := setNumber_toInt s _ hf
    have hc := BigInt.C21_compare hx (setNumber_wf s (num m e / den e))
    rw [hT] at hc
    have hd := den_pos e
    have hdiv : (num m e / den e) * den e ≤ num m e := Nat.div_mul_le_self _ _
    have hmod : num m e < (num m e / den e + 1) * den e := by
      rw [Nat.mul_comm]; exact Nat.lt_mul_div_succ _ hd
    have hn0 : ∀ t : Nat, num t 0 = t := by intro t; simp [num]
    have hd0 : den 0 = 1 := rfl
    have hl1 : dlt (.fin s (num m e / den e) 0) (.fin s m e) =
        decide (sgn s (num m e / den e) * den e < sgn s (num m e)) := by
      simp only [dlt, hn0, hd0]; simp
    have hl2 : dlt (.fin s m e) (.fin s (num m e / den e) 0) =
        decide (sgn s (num m e) < sgn s (num m e / den e) * den e) := by
      simp only [dlt, hn0, hd0]; simp
    have hl := extB_lt_fin x s m e
    have hg := fin_lt_extB x s m e
    have he := fin_eq_extB x s m e
    simp only [compareNumber, hl1, hl2]
    generalize num m e = N at *
    generalize den e = D at *
    generalize N / D = t at *
    obtain ⟨c1, c2, c3, -, -⟩ := hc
    have hsg : sgn s t * (D : Int) = sgn s (t * D) := by cases s <;> simp [sgn, Int.neg_mul]
    split
    · next hcmp =>
      have hlt := c1.mp hcmp
      apply CmpSpec.less
      rw [hl]
      have h1 : x.toInt ≤ sgn s t - 1 := by omega
      have h2 : x.toInt * (D : Int) ≤ (sgn s t - 1) * D :=
        Int.mul_le_mul_of_nonneg_right h1 (by omega)
      rw [Int.sub_mul, hsg] at h2
      rw [Nat.add_mul] at hmod
      cases s <;> simp only [sgn, Bool.false_eq_true, if_false, if_true] at * <;> omega
    · next hcmp =>
      have hlt := c3.mp hcmp
      apply CmpSpec.greater
      rw [hg]
      have h1 : sgn s t + 1 ≤ x.toInt := by omega
      have h2 : (sgn s t + 1) * (D : Int) ≤ x.toInt * (D : Int) :=
        Int.mul_le_mul_of_nonneg_right h1 (by omega)
      rw [Int.add_mul, hsg] at h2
      rw [Nat.add_mul] at hmod
      cases s <;> simp only [sgn, Bool.false_eq_true, if_false, if_true] at * <;> omega
    · next hcmp =>
      have heq := c2.mp hcmp
      rw [← heq]
      split
      · next h1 => exact .less (hl.mpr (by simpa using h1))
      · next h1 =>
        split
        · next h2 => exact .greater (hg.mpr (by simpa using h2))
        · next h2 =>
          simp only [decide_eq_true_eq] at h1 h2
          exact .equal (he.mpr (by omega))

theorem bigCmp_spec {x y : BI} (hx : x.WF) (hy : y.WF) :
    CmpSpec (ofBI (BigInt.compare x y)) (extB x) (extB y) := by
  obtain ⟨c1, c2, c3, -, -⟩ := BigInt.C21_compare hx hy
  cases h : BigInt.compare x y
  · exact .less (by simpa [extB, Ext.Lt, Rat.intCast_lt_intCast] using c1.mp h)
  · exact .equal (by simpa [extB, Ext.Eq] using c2.mp h)
  · exact .greater (by simpa [extB, Ext.Lt, Rat.intCast_lt_intCast] using c3.mp h)

end Verif.Operators
