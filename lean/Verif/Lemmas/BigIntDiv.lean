import Verif.Lemmas.BigIntMul
/-
Helper lemmas about `bi_div` of the big integer model.
-/
namespace Verif.BigInt

theorem compare_pos {a b : List Nat} (ha : Digits a) (ha' : TopNZ a) (hb : Digits b)
    (hb' : TopNZ b) (hb0 : b ≠ []) :
    compare (BI.ofMag a) (BI.ofMag b) = .less ↔ val a < val b := by
  have hbp := val_pos hb' hb0
  unfold compare
  simp only [BI.ofMag, BI.isZero]
  by_cases h0 : a = []
  · subst h0; simp [hb0, hbp]
  · simp only [h0, hb0, cmpAbs_spec ha ha' hb hb', decide_false, Bool.not_false, Bool.and_false,
      Bool.false_eq_true, if_false, Bool.or_false]
    rcases lt_trichotomy (val a) (val b) with h | h | h
    · simp [h]
    · simp [h]
    · rw [if_neg (by omega), if_neg (by omega)]
      simp; omega

theorem getD_val (l : List Nat) (h : Digits l) (i : Nat) :
    l.getD i 0 = val l / base ^ i % base := by
  induction l generalizing i with
  | nil => simp
  | cons d ds ih =>
    rw [digits_cons] at h
    cases i with
    | zero => simp; have := h.1; unfold base at *; omega
    | succ i =>
      rw [List.getD_cons_succ, ih h.2, val_cons, pow_succ, Nat.mul_comm (base ^ i) base,
        ← Nat.div_div_eq_div_mul]
      congr 2
      have := h.1; unfold base at *; omega

/-- The two limb estimate taken from the dividend. -/
theorem estimate_val {l : List Nat} (h : Digits l) {size : Nat} (hs : 0 < size)
    (hlen : l.length ≤ size + 1) :
    l.getD (size - 1) 0 + (if size < l.length then l.getD size 0 * base else 0) =
      val l / base ^ (size - 1) := by
  obtain ⟨s, rfl⟩ : ∃ s, size = s + 1 := ⟨size - 1, by omega⟩
  have e1 : (if s + 1 < l.length then l.getD (s + 1) 0 * base else 0) = l.getD (s + 1) 0 * base := by
    split
    · rfl
    · rw [List.getD_eq_getElem?_getD, List.getElem?_eq_none (by omega)]; simp
  rw [e1, getD_val l h, getD_val l h, Nat.add_sub_cancel]
  have hlt : val l / base ^ s < base * base := by
    rw [Nat.div_lt_iff_lt_mul (Nat.pow_pos (by decide))]
    calc val l < base ^ l.length := val_lt h
      _ ≤ base ^ (s + 2) := Nat.pow_le_pow_right (by decide) hlen
      _ = base * base * base ^ s := by rw [pow_add]; ring
  rw [pow_succ, ← Nat.div_div_eq_div_mul]
  generalize val l / base ^ s = v at *
  unfold base at *; omega

/-- Every subtraction performed in the loop at this position is exact. -/
def SubOK (A cmp : Nat) : Prop :=
  ∀ (l : List Nat) (n : Nat), Digits l → TopNZ l → val l ≤ A → n * cmp ≤ val l → n < base →
    BorrowContiguous (val l) (n * cmp) l.length

theorem selfSub_spec {x y : BI} (hx : x.WF) (hxn : x.neg = false) (hy : y.WF)
    (hle : val y.mag ≤ val x.mag)
    (hc : BorrowContiguous (val x.mag) (val y.mag) x.mag.length) :
    (selfSubGreater x y).WF ∧ (selfSubGreater x y).neg = false ∧
      val (selfSubGreater x y).mag = val x.mag - val y.mag := by
  unfold selfSubGreater
  rw [selfSubLoop_eq _ _ _ hx.digits, hxn]
  refine ⟨WF.strip (subLoop_digits _ _ _), ?_, ?_⟩
  · unfold BI.strip; split <;> rfl
  · rw [mag_bistrip, val_strip]
    exact (subLoop_sub _ _ hx.digits hy.digits hy.top hle).2 hc

theorem divInner_spec {op2 : List Nat} (ho : Digits op2) (ho' : TopNZ op2) (ho0 : op2 ≠ [])
    (shift : Nat) (A : Nat) (hok : SubOK A (base ^ shift * val op2)) (fuel : Nat)
    (left qr : BI)
    (hl : left.WF) (hln : left.neg = false) (hlA : val left.mag ≤ A) (hq : qr.WF)
    (hqn : qr.neg = false) (hlen : left.mag.length ≤ shift + op2.length + 1)
    (hf : val left.mag < fuel) :
    ∃ left' qr', divInner (List.replicate shift 0 ++ op2) (shift + op2.length) op2.length shift
        ((List.replicate shift 0 ++ op2).getD (shift + op2.length - 1) 0 +
          (if shift + op2.length - 1 ≠ 0 then 1 else 0)) fuel left qr = some (left', qr') ∧
      left'.WF ∧ left'.neg = false ∧ qr'.WF ∧ qr'.neg = false ∧
      val left'.mag ≤ val left.mag ∧
      val left'.mag + val qr'.mag * val op2 = val left.mag + val qr.mag * val op2 ∧
      left'.mag.length ≤ shift + op2.length ∧ (shift = 0 → val left'.mag < val op2) := by
  have hop := val_pos ho' ho0
  have hlen0 : 0 < op2.length := List.length_pos_iff.2 ho0
  have hcd : Digits (List.replicate shift 0 ++ op2) := digits_append.2 ⟨digits_replicate _, ho⟩
  have hct : TopNZ (List.replicate shift 0 ++ op2) := topNZ_append ho' ho0
  have hcn : List.replicate shift 0 ++ op2 ≠ [] := by simp [ho0]
  have hcv := val_shift shift op2
  have hclen : (List.replicate shift 0 ++ op2).length = shift + op2.length := by simp
  generalize hsz : shift + op2.length = size at *
  generalize hcmp : List.replicate shift 0 ++ op2 = cmp at *
  have hsize : 0 < size := by omega
  -- the divisor estimate
  have hP : 0 < base ^ (size - 1) := Nat.pow_pos (by decide)
  have hclt : val cmp < base ^ size := by rw [← hclen]; exact val_lt hcd
  have hPs : base ^ size = base ^ (size - 1) * base := by rw [← pow_succ]; congr 1; omega
  have htop : cmp.getD (size - 1) 0 = val cmp / base ^ (size - 1) := by
    rw [getD_val _ hcd, Nat.mod_eq_of_lt]
    rw [Nat.div_lt_iff_lt_mul hP]
    rw [hPs] at hclt; rw [Nat.mul_comm]; exact hclt
  have htlt : val cmp / base ^ (size - 1) < base := by
    rw [Nat.div_lt_iff_lt_mul hP]
    rw [hPs] at hclt; rw [Nat.mul_comm]; exact hclt
  have htge : 1 ≤ val cmp / base ^ (size - 1) := by
    rw [Nat.le_div_iff_mul_le hP]
    have := val_ge hct hcn
    rw [hclen] at this; omega
  generalize hv2 : cmp.getD (size - 1) 0 + (if size - 1 ≠ 0 then 1 else 0) = v2
  have hv2le : v2 ≤ base := by rw [← hv2, htop]; split <;> omega
  have hv2pos : 0 < v2 := by rw [← hv2, htop]; omega
  -- `cmp ≤ v2 * B^(size-1)`
  have hcv2 : val cmp ≤ v2 * base ^ (size - 1) := by
    rw [← hv2, htop]
    have hdm := Nat.div_add_mod (val cmp) (base ^ (size - 1))
    have hml := Nat.mod_lt (val cmp) hP
    split
    · rw [Nat.add_mul, Nat.mul_comm]; omega
    · rename_i h1
      have h1 : size - 1 = 0 := by simpa using h1
      rw [h1]; simp
  induction fuel generalizing left qr with
  | zero => omega
  | succ f ih =>
    rw [divInner]
    simp only []
    rw [estimate_val hl.digits hsize hlen]
    generalize hv1 : val left.mag / base ^ (size - 1) = v1
    -- one subtraction of `n * cmp`
    have step : ∀ n, 0 < n → n < base → n * val cmp ≤ val left.mag →
        ∃ left' qr', divInner cmp size op2.length shift v2 f
          (selfSubGreater left (mulInt (BI.ofMag cmp) n 0))
          (selfAdd qr (BI.ofMag (List.replicate shift 0 ++ [n]))) = some (left', qr') ∧
        left'.WF ∧ left'.neg = false ∧ qr'.WF ∧ qr'.neg = false ∧
        val left'.mag ≤ val left.mag ∧
        val left'.mag + val qr'.mag * val op2 = val left.mag + val qr.mag * val op2 ∧
        left'.mag.length ≤ size ∧ (shift = 0 → val left'.mag < val op2) := by
      intro n hn0 hnb hnle
      obtain ⟨m1, m2, m3⟩ := mulInt_pos (WF.ofMag hcd hct) rfl hnb
      have m2' : val (mulInt (BI.ofMag cmp) n 0).mag = n * val cmp := by
        rw [m2, Nat.mul_comm]; rfl
      have hbc := hok left.mag n hl.digits hl.top hlA (by rw [← hcv]; exact hnle) hnb
      rw [← hcv] at hbc
      obtain ⟨s1, s2, s3⟩ := selfSub_spec hl hln m1 (by rw [m2']; exact hnle)
        (by rw [m2']; exact hbc)
      rw [m2'] at s3
      have hadd : (BI.ofMag (List.replicate shift 0 ++ [n])).WF :=
        WF.ofMag (digits_append.2 ⟨digits_replicate _, by rw [digits_cons]; exact ⟨hnb, Digits.nil⟩⟩)
          (topNZ_append (show n ≠ 0 by omega) (by simp))
      have q1 := wf_selfAdd hq hadd
      have q2 := val_selfAdd hq hadd
      have q3 : (selfAdd qr (BI.ofMag (List.replicate shift 0 ++ [n]))).neg = false := by
        simp [selfAdd, hqn]
      have hcpos : 0 < n * val cmp := Nat.mul_pos hn0 (val_pos hct hcn)
      have hlen' : (selfSubGreater left (mulInt (BI.ofMag cmp) n 0)).mag.length ≤ size + 1 := by
        have := length_le_of_val_le s1.top hl.digits (by omega :
          val (selfSubGreater left (mulInt (BI.ofMag cmp) n 0)).mag ≤ val left.mag)
        omega
      obtain ⟨l', q', r1, r2, r3, r4, r5, r6, r7, r8, r9⟩ := ih _ _ s1 s2 (by omega) q1 q3 (by omega) hlen'
      refine ⟨l', q', r1, r2, r3, r4, r5, by omega, ?_, r8, r9⟩
      rw [r7, s3, q2]
      have hav : val (BI.ofMag (List.replicate shift 0 ++ [n])).mag = base ^ shift * n := by
        simp only [BI.ofMag]; rw [val_shift]; simp
      rw [hav, Nat.add_mul]
      have : base ^ shift * n * val op2 = n * val cmp := by rw [hcv]; ring
      rw [this]
      omega
    by_cases hn0 : v1 / v2 = 0
    · rw [hn0]
      have hv1lt : v1 < v2 := by
        by_contra hc
        have := Nat.div_pos (not_lt.1 hc) hv2pos
        omega
      have hsm : left.mag.length ≤ size := by
        apply length_le_of_val_lt hl.top
        have : val left.mag / base ^ (size - 1) < base := by omega
        rw [Nat.div_lt_iff_lt_mul hP] at this
        rw [hPs, Nat.mul_comm]; exact this
      have hlm : left = BI.ofMag left.mag := by
        rw [BI.ofMag, ← hln]
      have hcompare := compare_pos hl.digits hl.top hcd hct hcn
      rw [← hlm] at hcompare
      by_cases hcond : size = op2.length ∧ compare left (BI.ofMag cmp) ≠ .less
      · simp only [hcond, if_true]
        have hge : val cmp ≤ val left.mag := by
          have := hcond.2
          rw [ne_eq, hcompare] at this
          omega
        have := step 1 (by omega) (by decide) (by omega)
        simpa [hcond] using this
      · simp only [if_true, hcond, if_false]
        refine ⟨left, qr, rfl, hl, hln, hq, hqn, le_refl _, rfl, hsm, ?_⟩
        intro hs0
        have hsz' : size = op2.length := by omega
        have : compare left (BI.ofMag cmp) = .less := by
          by_contra hc; exact hcond ⟨hsz', hc⟩
        rw [hcompare] at this
        rw [hcv, hs0] at this
        simpa using this
    · simp only [hn0, if_false]
      have hmul : v1 / v2 * val cmp ≤ val left.mag := by
        calc v1 / v2 * val cmp ≤ v1 / v2 * (v2 * base ^ (size - 1)) := Nat.mul_le_mul_left _ hcv2
          _ = v1 / v2 * v2 * base ^ (size - 1) := by ring
          _ ≤ v1 * base ^ (size - 1) := Nat.mul_le_mul_right _ (Nat.div_mul_le_self _ _)
          _ ≤ val left.mag := by rw [← hv1]; exact Nat.div_mul_le_self _ _
      split
      · rename_i hbig
        apply step 4294967295 (by omega) (by decide)
        exact le_trans (Nat.mul_le_mul_right _ (le_of_lt hbig)) hmul
      · rename_i hbig
        exact step _ (Nat.pos_of_ne_zero hn0) (by unfold base; omega) hmul

theorem divOuter_spec {op2 : List Nat} (ho : Digits op2) (ho' : TopNZ op2) (ho0 : op2 ≠ [])
    (k : Nat) (A : Nat) (hok : ∀ shift A', shift < k → A' ≤ A → A' < base ^ (shift + op2.length + 1) →
      SubOK A' (base ^ shift * val op2))
    (left qr : BI) (hl : left.WF) (hln : left.neg = false) (hlA : val left.mag ≤ A) (hq : qr.WF)
    (hqn : qr.neg = false) (hlen : left.mag.length ≤ k + op2.length)
    (hk : k = 0 → val left.mag < val op2) :
    ∃ left' qr', divOuter op2 k left qr = some (left', qr') ∧
      left'.WF ∧ left'.neg = false ∧ qr'.WF ∧ qr'.neg = false ∧
      val left'.mag + val qr'.mag * val op2 = val left.mag + val qr.mag * val op2 ∧
      val left'.mag < val op2 := by
  induction k generalizing left qr with
  | zero => exact ⟨left, qr, rfl, hl, hln, hq, hqn, rfl, hk rfl⟩
  | succ s ih =>
    rw [divOuter]
    have hf : val left.mag < base ^ left.mag.length + 1 :=
      Nat.lt_succ_of_lt (val_lt hl.digits)
    obtain ⟨l1, q1, r1, r2, r3, r4, r5, r6, r7, r8, r9⟩ := divInner_spec ho ho' ho0 s (val left.mag)
      (hok s (val left.mag) (by omega) hlA (lt_of_lt_of_le (val_lt hl.digits)
        (Nat.pow_le_pow_right (by decide) (by omega)))) (base ^ left.mag.length + 1) left qr hl hln (le_refl _) hq hqn (by omega) hf
    simp only [r1]
    obtain ⟨l2, q2, t1, t2, t3, t4, t5, t6, t7⟩ := ih (fun s' A' h' => hok s' A' (by omega)) l1 q1 r2 r3
      (by omega) r4 r5 (by omega) r9
    exact ⟨l2, q2, t1, t2, t3, t4, t5, by omega, t7⟩

theorem div_nat_unique {a b q r : Nat} (h : r + q * b = a) (hr : r < b) : q = a / b ∧ r = a % b := by
  subst h
  have hb : 0 < b := by omega
  rw [Nat.add_mul_div_right _ _ hb, Nat.add_mul_mod_self_right, Nat.div_eq_of_lt hr,
    Nat.mod_eq_of_lt hr]
  omega

/-- `bi_div` under the condition that all its subtractions are exact. -/
theorem div_spec {x y : BI} (hx : x.WF) (hy : y.WF) (hy0 : y.toInt ≠ 0)
    (hok : ∀ shift A', shift < x.mag.length + 1 - y.mag.length → A' ≤ val x.mag →
      A' < base ^ (shift + y.mag.length + 1) → SubOK A' (base ^ shift * val y.mag)) :
    ∃ q r, div x y = .ok q r ∧ q.WF ∧ r.WF ∧ q.toInt = x.toInt.tdiv y.toInt ∧
      r.toInt = x.toInt.tmod y.toInt := by
  unfold div
  have hyz : ¬ (y.isZero = true) := fun h => hy0 (toInt_of_isZero h)
  have hy0' : y.mag ≠ [] := fun h => hyz (by simp [BI.isZero, h])
  rw [if_neg hyz]
  split
  · rename_i h
    refine ⟨_, _, rfl, WF.zero, WF.zero, ?_, ?_⟩ <;> simp [toInt_zero, toInt_of_isZero h]
  · rename_i hxz
    split
    · rename_i h1
      have h1' := (isOne_iff hy).1 h1
      refine ⟨_, _, rfl, ?_, WF.zero, ?_, ?_⟩
      · split
        · exact WF.negate hx
        · exact hx
      · rw [toInt_cond_negate]
        have : y.toInt = if y.neg then -1 else 1 := by
          unfold BI.toInt; rw [h1']; simp
        rw [this]
        cases y.neg <;> simp [Int.tdiv_one]
      · have : y.toInt = if y.neg then -1 else 1 := by
          unfold BI.toInt; rw [h1']; simp
        rw [this, toInt_zero]
        cases y.neg <;> simp
    · obtain ⟨l, q, r1, r2, r3, r4, r5, r6, r7⟩ := divOuter_spec hy.digits hy.top hy0'
        (x.mag.length + 1 - y.mag.length) (val x.mag) hok x.abs BI.zero (WF.abs hx) rfl (le_refl _)
        WF.zero rfl (by simp [BI.abs]; omega) (by
          intro h
          by_contra hc
          have := length_le_of_val_le hy.top hx.digits (not_lt.1 hc)
          omega)
      rw [r1]
      simp only
      have hu := div_nat_unique (a := val x.mag) (by simpa [BI.abs, BI.zero] using r6) r7
      refine ⟨_, _, rfl, ?_, ?_, ?_, ?_⟩
      · split
        · exact WF.negate r4
        · exact r4
      · split
        · exact WF.negate r2
        · exact r2
      · have : ∀ (p : Prop) [Decidable p] (d : BI),
            (if p then d.negate else d).toInt = if p then - d.toInt else d.toInt := by
          intro p _ d; split <;> simp [toInt_negate]
        rw [this, toInt_of_neg r5, hu.1]
        unfold BI.toInt
        cases x.neg <;> cases y.neg <;> simp [Int.neg_tdiv, Int.tdiv_neg]
      · rw [toInt_cond_negate, toInt_of_neg r3, hu.2]
        unfold BI.toInt
        cases x.neg <;> cases y.neg <;> simp [Int.neg_tmod, Int.tmod_neg, Int.tmod_eq_emod_of_nonneg]

/-- Subtractions are exact when everything fits in two limbs. -/
theorem subOK_short {A c : Nat} (h : A < base ^ 2) : SubOK A c := by
  intro l n hd ht hle _ _
  exact borrow_of_short _ _ _ (length_le_of_val_lt ht (by omega))

/-- Subtractions of a multiple of `B^s * d` with a single limb `d` from a number below
`B^(s+2)` are exact. -/
theorem subOK_single {A s d : Nat} (hA : A < base ^ (s + 2)) : SubOK A (base ^ s * d) := by
  intro l n hd ht hle hn hnb i j hij hj hi
  have hlen := length_le_of_val_lt ht (lt_of_le_of_lt hle hA)
  exfalso
  have his : i ≤ s := by omega
  have : n * (base ^ s * d) % base ^ i = 0 := by
    obtain ⟨k, rfl⟩ := Nat.exists_eq_add_of_le his
    rw [pow_add]
    rw [show n * (base ^ i * base ^ k * d) = base ^ i * (base ^ k * d * n) by ring]
    exact Nat.mul_mod_right _ _
  rw [this] at hi
  exact Nat.not_lt_zero _ hi

end Verif.BigInt
