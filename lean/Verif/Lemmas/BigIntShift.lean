import Verif.Lemmas.BigIntBits
/-
Helper lemmas: when `bi_shift` of the big integer model is exact.
-/
namespace Verif.BigInt

/-- Result of the right shift branch. -/
def shrRes (x : BI) (amt : Nat) : BI :=
  let d := strip (shrLoop (amt % 32) (if x.neg then base - 1 else 0)
    ((if x.neg then complRaw x.mag else x.mag).drop (amt / 32)))
  if x.neg then BI.negate (BI.ofMag (complement d)) else BI.ofMag d

/-- Result of the left shift branch. -/
def shlRes (x : BI) (amt : Nat) : BI :=
  let p := shlLoop (amt % 32) (if x.neg then complRaw x.mag else x.mag) 0
  let d := strip (List.replicate (amt / 32) 0 ++ p.1 ++
    (if p.2 ≠ 0 then
      [if x.neg then p.2 ||| ((base - 1) * 2 ^ (amt % 32) % base) else p.2]
    else []))
  if x.neg then BI.negate (BI.ofMag (complement d)) else BI.ofMag d

theorem shift_eq (x y : BI) (rev : Bool) (hy : y.mag.length = 1) :
    shift x y rev = .ok (if (if rev then !y.neg else y.neg) then shrRes x (y.mag.headD 0)
      else shlRes x (y.mag.headD 0)) := by
  obtain ⟨a, ha⟩ := List.length_eq_one_iff.1 hy
  unfold shift
  have hz : y.isZero = false := by simp [BI.isZero, ha]
  rw [hz]
  simp only [Bool.false_eq_true, if_false, ha, List.length_cons, List.length_nil, List.headD_cons]
  cases rev <;> cases hn : y.neg <;> simp [shrRes, shlRes, apply_ite Res.ok]

theorem shrRes_wf {x : BI} (hx : x.WF) (amt : Nat) : (shrRes x amt).WF := by
  unfold shrRes
  have hb : amt % 32 < 32 := Nat.mod_lt _ (by omega)
  simp only
  cases x.neg
  · simp only [Bool.false_eq_true, if_false]
    exact WF.ofMag (strip_digits (shrLoop_spec hb (by decide) _ (digits_drop hx.digits _)).2.1)
      (strip_top _)
  · simp only [if_true]
    exact (toInt_neg_complement (strip_digits (shrLoop_spec hb (by decide) _
      (digits_drop (complRaw_spec hx.digits).2.1 _)).2.1)).2

theorem neg_facts {x : BI} (hx : x.WF) (hn : x.neg = true) :
    x.mag ≠ [] ∧ 0 < val x.mag ∧ val x.mag < base ^ x.mag.length ∧
      x.toInt = -(val x.mag : Int) := by
  have hne : x.mag ≠ [] := fun h => by rw [hx.sign h] at hn; cases hn
  exact ⟨hne, val_pos hx.top hne, val_lt hx.digits, by rw [toInt_of_neg hn]; simp⟩

theorem shrRes_nonneg {x : BI} (hx : x.WF) (hn : x.neg = false) (amt : Nat) :
    (shrRes x amt).toInt = x.toInt / ((2 ^ amt : Nat) : Int) := by
  unfold shrRes
  simp only [hn, Bool.false_eq_true, if_false]
  rw [toInt_ofMag, val_strip, (shr_nonneg hx.digits amt).1, toInt_of_neg hn]
  simp

theorem shrRes_neg {x : BI} (hx : x.WF) (hn : x.neg = true) (amt : Nat) :
    (shrRes x amt).toInt = x.toInt / ((2 ^ amt : Nat) : Int) ↔
      (x.mag.length ≤ amt / 32 ∨
        ((base ^ (x.mag.length - amt / 32 - 1) : Nat) : Int) ≤
          x.toInt / ((2 ^ amt : Nat) : Int) + ((base ^ (x.mag.length - amt / 32) : Nat) : Int)) := by
  obtain ⟨hne, hpos, hlt, hint⟩ := neg_facts hx hn
  obtain ⟨c1, c2, c3⟩ := complRaw_spec hx.digits
  have hlen := c3 hpos
  unfold shrRes
  simp only [hn, if_true]
  by_cases hk : x.mag.length ≤ amt / 32
  · simp only [hk, true_or, iff_true]
    rw [List.drop_eq_nil_of_le (by omega)]
    have : (complement (strip (shrLoop (amt % 32) (base - 1) []))) = [1] := by
      show complement (strip []) = [1]; decide
    rw [this, toInt_negate, toInt_ofMag, hint]
    symm
    have hle : val x.mag ≤ 2 ^ amt := by
      have : base ^ x.mag.length ≤ 2 ^ amt := by
        rw [base_pow]; exact Nat.pow_le_pow_right (by omega) (by omega)
      omega
    rw [Int.ediv_eq_neg_one_of_neg_of_le]
    · rfl
    · omega
    · have : ((val x.mag : Nat) : Int) ≤ ((2 ^ amt : Nat) : Int) := by exact_mod_cast hle
      omega
  · simp only [hk, false_or]
    obtain ⟨s1, s2, s3⟩ := shr_neg c2 hpos (by rw [hlen]; exact c1) amt (by omega)
    rw [hlen] at s1 s3
    generalize hR : shrLoop (amt % 32) (base - 1) (List.drop (amt / 32) (complRaw x.mag)) = R at *
    rw [(toInt_neg_complement (strip_digits s2)).1, val_strip, hint, ← s1, ← s3]
    have hRne : R ≠ [] := by intro h; rw [h] at s3; simp at s3; omega
    rw [← s3] at s1
    have hiff := strip_length_eq_iff s2 hRne
    constructor
    · intro h
      have : (base : Int) ^ (strip R).length = (base : Int) ^ R.length := by
        have e : ((base ^ R.length : Nat) : Int) = (base : Int) ^ R.length := by push_cast; rfl
        rw [← e]; omega
      have := hiff.1 (pow_base_inj this)
      exact_mod_cast this
    · intro h
      have : base ^ (R.length - 1) ≤ val R := by exact_mod_cast h
      rw [hiff.2 this]
      have e : ((base ^ R.length : Nat) : Int) = (base : Int) ^ R.length := by push_cast; rfl
      rw [← e]; omega

theorem shlRes_digits {x : BI} (hx : x.WF) (amt : Nat) :
    let p := shlLoop (amt % 32) (if x.neg then complRaw x.mag else x.mag) 0
    Digits (List.replicate (amt / 32) 0 ++ p.1 ++
    (if p.2 ≠ 0 then
      [if x.neg then p.2 ||| ((base - 1) * 2 ^ (amt % 32) % base) else p.2]
    else [])) := by
  have hb : amt % 32 < 32 := Nat.mod_lt _ (by omega)
  have hd : Digits (if x.neg then complRaw x.mag else x.mag) := by
    split
    · exact (complRaw_spec hx.digits).2.1
    · exact hx.digits
  obtain ⟨h1, h2, h3, h4⟩ := shlLoop_spec hb _ 0 hd (Nat.pow_pos (by omega))
  simp only
  have hle : 2 ^ (amt % 32) ≤ base := by
    rw [base_eq]; exact Nat.pow_le_pow_right (by omega) (by omega)
  refine digits_append.2 ⟨digits_append.2 ⟨digits_replicate _, h2⟩, ?_⟩
  generalize (shlLoop (amt % 32) (if x.neg = true then complRaw x.mag else x.mag) 0).2 = o at *
  by_cases ho : o = 0
  · simp [ho, Digits.nil]
  · rw [if_pos ho, digits_cons]
    refine ⟨?_, Digits.nil⟩
    split
    · rw [or_high h4 hb]; omega
    · omega

theorem shlRes_wf {x : BI} (hx : x.WF) (amt : Nat) : (shlRes x amt).WF := by
  have h := shlRes_digits hx amt
  unfold shlRes
  simp only at *
  cases hn : x.neg
  · rw [hn] at h
    exact WF.ofMag (strip_digits h) (strip_top _)
  · rw [hn] at h
    exact (toInt_neg_complement (strip_digits h)).2

theorem shlRes_nonneg {x : BI} (hx : x.WF) (hn : x.neg = false) (amt : Nat) :
    (shlRes x amt).toInt = x.toInt * ((2 ^ amt : Nat) : Int) := by
  have hb : amt % 32 < 32 := Nat.mod_lt _ (by omega)
  unfold shlRes
  simp only [hn, Bool.false_eq_true, if_false]
  obtain ⟨h1, h2, h3, h4⟩ := shlLoop_spec hb x.mag 0 hx.digits (Nat.pow_pos (by omega))
  generalize shlLoop (amt % 32) x.mag 0 = p at *
  rw [toInt_ofMag, val_strip, toInt_of_neg hn]
  simp only [Bool.false_eq_true, if_false]
  rw [← Nat.cast_mul]
  congr 1
  rw [List.append_assoc, val_shift, val_append, h3, two_pow_split amt]
  have : val (if p.2 ≠ 0 then [p.2] else []) = p.2 := by
    split
    · simp
    · rename_i h; simp at h; simp [h]
  rw [this, h1]; ring

theorem base_pow_ne {k j b : Nat} (hb : 0 < b) (hb' : b < 32) : base ^ j ≠ base ^ k * 2 ^ b := by
  intro h
  rw [base_pow, base_pow, ← pow_add] at h
  have := Nat.pow_right_injective (le_refl 2) h
  omega

theorem shlRes_neg {x : BI} (hx : x.WF) (hn : x.neg = true) (amt : Nat) :
    (shlRes x amt).toInt = x.toInt * ((2 ^ amt : Nat) : Int) ↔
      (if amt % 32 = 0 then
        val x.mag + base ^ (x.mag.length - 1) ≤ base ^ x.mag.length
      else
        base ^ x.mag.length ≤ (base ^ x.mag.length - val x.mag) * 2 ^ (amt % 32)) := by
  obtain ⟨hne, hpos, hlt, hint⟩ := neg_facts hx hn
  obtain ⟨c1, c2, c3⟩ := complRaw_spec hx.digits
  have hlen := c3 hpos
  have hb : amt % 32 < 32 := Nat.mod_lt _ (by omega)
  have hdig := shlRes_digits hx amt
  unfold shlRes
  simp only [hn, if_true] at *
  obtain ⟨h1, h2, h3, h4⟩ := shlLoop_spec hb (complRaw x.mag) 0 c2 (Nat.pow_pos (by omega))
  have hsplit := two_pow_split amt
  generalize shlLoop (amt % 32) (complRaw x.mag) 0 = p at *
  obtain ⟨r, o⟩ := p
  simp only at *
  rw [hlen] at h1 h3
  generalize amt / 32 = off at *
  generalize amt % 32 = b at *
  generalize hk : x.mag.length = k at *
  have hk0 : 0 < k := by rw [← hk]; exact List.length_pos_iff.2 hne
  have hc : val (complRaw x.mag) = base ^ k - val x.mag := by omega
  rw [hc] at h1
  rw [(toInt_neg_complement (strip_digits hdig)).1, val_strip, hint]
  have hpk : 0 < base ^ k := Nat.pow_pos (by decide)
  have hle2 : 2 ^ b ≤ base := by
    rw [base_eq]; exact Nat.pow_le_pow_right (by omega) (by omega)
  have hsubmul : (base ^ k - val x.mag) * 2 ^ b = base ^ k * 2 ^ b - val x.mag * 2 ^ b := by
    rw [Nat.sub_mul]
  have hmulle : val x.mag * 2 ^ b ≤ base ^ k * 2 ^ b := Nat.mul_le_mul_right _ (le_of_lt hlt)
  by_cases ho : o = 0
  · -- no carry out of the top limb
    subst ho
    simp only [ne_eq, not_true_eq_false, if_false, List.append_nil, Nat.mul_zero,
      Nat.add_zero] at *
    rw [val_shift]
    have hrlt : val r < base ^ k := by rw [← h3]; exact val_lt h2
    have hrpos : 0 < val r := by
      rw [h1]; exact Nat.mul_pos (by omega) (Nat.pow_pos (by omega))
    -- length after `bi_end`
    have hrne : r ≠ [] := by rintro rfl; simp at hrpos
    have hs : strip (List.replicate off 0 ++ r) = List.replicate off 0 ++ strip r := by
      have hsr : strip r ≠ [] := by rw [ne_eq, strip_eq_nil]; omega
      apply val_inj (strip_digits hdig) (strip_top _)
        (digits_append.2 ⟨digits_replicate _, strip_digits h2⟩) (topNZ_append (strip_top _) hsr)
      rw [val_strip, val_shift, val_shift, val_strip]
    rw [hs, List.length_append, List.length_replicate]
    have hmain : (((base ^ off * val r : Nat) : Int) - (base : Int) ^ (off + (strip r).length) =
        -(val x.mag : Int) * ((2 ^ amt : Nat) : Int)) ↔
        base ^ (strip r).length = base ^ k * 2 ^ b := by
      have e : (base : Int) ^ (off + (strip r).length) =
          ((base ^ off * base ^ (strip r).length : Nat) : Int) := by
        rw [← pow_add]; push_cast; rfl
      rw [e, hsplit]
      have hpo : 0 < base ^ off := Nat.pow_pos (by decide)
      have e2 : -(val x.mag : Int) * ((base ^ off * 2 ^ b : Nat) : Int) =
          -((base ^ off * (val x.mag * 2 ^ b) : Nat) : Int) := by push_cast; ring
      rw [e2]
      have : ((base ^ off * val r : Nat) : Int) - ((base ^ off * base ^ (strip r).length : Nat) : Int) =
          -((base ^ off * (val x.mag * 2 ^ b) : Nat) : Int) ↔
          base ^ off * val r + base ^ off * (val x.mag * 2 ^ b) =
            base ^ off * base ^ (strip r).length := by omega
      rw [this, ← Nat.mul_add, Nat.mul_right_inj (by omega)]
      have : val r + val x.mag * 2 ^ b = base ^ k * 2 ^ b := by omega
      rw [this]
      exact eq_comm
    rw [hmain]
    split
    · rename_i hb0
      subst hb0
      simp only [pow_zero, Nat.mul_one] at *
      have hiff := strip_length_eq_iff h2 hrne
      rw [h3] at hiff
      constructor
      · intro h
        have := hiff.1 (Nat.pow_right_injective (by decide : 2 ≤ base) h)
        omega
      · intro h
        rw [hiff.2 (by omega)]
    · rename_i hb0
      constructor
      · intro h; exact absurd h (base_pow_ne (by omega) hb)
      · intro h; omega
  · -- the carry is stored in a new limb
    simp only [ne_eq, ho, not_false_eq_true, if_true] at hdig ⊢
    rw [or_high h4 hb] at *
    have hb0 : b ≠ 0 := by rintro rfl; simp at h4; omega
    rw [if_neg hb0]
    have hcond : base ^ k ≤ (base ^ k - val x.mag) * 2 ^ b := by
      have : base ^ k * 1 ≤ base ^ k * o := Nat.mul_le_mul_left _ (by omega)
      omega
    simp only [hcond, iff_true]
    have htop : TopNZ (List.replicate off 0 ++ r ++ [o + base - 2 ^ b]) :=
      topNZ_append (show o + base - 2 ^ b ≠ 0 by omega) (by simp)
    rw [strip_eq_self htop]
    simp only [List.length_append, List.length_replicate, h3, List.length_cons, List.length_nil]
    rw [List.append_assoc, val_shift, val_append, h3]
    simp only [val_cons, val_nil, Nat.mul_zero, Nat.add_zero]
    have e : (base : Int) ^ (off + k + (0 + 1)) = ((base ^ off * (base ^ k * base) : Nat) : Int) := by
      rw [Nat.zero_add, pow_add, pow_add, pow_one]; push_cast; ring
    rw [e, hsplit]
    have hval : val r + base ^ k * (o + base - 2 ^ b) + val x.mag * 2 ^ b = base ^ k * base := by
      have e1 : base ^ k * (o + base - 2 ^ b) + base ^ k * 2 ^ b = base ^ k * o + base ^ k * base := by
        rw [← Nat.mul_add, ← Nat.mul_add]; congr 1; omega
      omega
    have e2 : -(val x.mag : Int) * ((base ^ off * 2 ^ b : Nat) : Int) =
        -((base ^ off * (val x.mag * 2 ^ b) : Nat) : Int) := by push_cast; ring
    rw [e2]
    have : base ^ off * (val r + base ^ k * (o + base - 2 ^ b)) + base ^ off * (val x.mag * 2 ^ b) =
        base ^ off * (base ^ k * base) := by rw [← Nat.mul_add, hval]
    omega

end Verif.BigInt
