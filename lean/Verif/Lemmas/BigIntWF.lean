import Verif.Lemmas.BigIntShift
/-
Every operation of the big integers yields a canonical value, also where its
numeric result is wrong.
-/
namespace Verif.BigInt

theorem selfSubGreater_wf {x : BI} (hx : x.WF) (hxn : x.neg = false) (y : BI) :
    (selfSubGreater x y).WF ∧ (selfSubGreater x y).neg = false := by
  have hd : Digits (selfSubLoop x.mag y.mag 0) := by
    rw [selfSubLoop_eq _ _ _ hx.digits]; exact subLoop_digits _ _ _
  refine ⟨WF.strip hd, ?_⟩
  unfold selfSubGreater BI.strip
  split
  · rfl
  · exact hxn

theorem selfAdd_neg {x y : BI} (h : x.neg = false) : (selfAdd x y).neg = false := by
  unfold selfAdd; simp [h]

theorem divInner_wf (cmp : List Nat) (size size2 shift v2 : Nat) (fuel : Nat) :
    ∀ {left qr left' qr' : BI}, left.WF → left.neg = false → qr.WF → qr.neg = false →
      divInner cmp size size2 shift v2 fuel left qr = some (left', qr') →
      left'.WF ∧ left'.neg = false ∧ qr'.WF ∧ qr'.neg = false := by
  induction fuel with
  | zero => intro _ _ _ _ _ _ _ _ h; simp [divInner] at h
  | succ fuel ih =>
    intro left qr left' qr' hl hln hq hqn h
    rw [divInner] at h
    simp only at h
    generalize hn1 : (if (left.mag.getD (size - 1) 0 +
      (if size < left.mag.length then left.mag.getD size 0 * base else 0)) / v2 = 0 then
        (if size = size2 ∧ compare left (BI.ofMag cmp) ≠ .less then 1 else 0)
      else (left.mag.getD (size - 1) 0 +
      (if size < left.mag.length then left.mag.getD size 0 * base else 0)) / v2) = n1 at h
    by_cases h0 : n1 = 0
    · rw [if_pos h0] at h
      simp only [Option.some.injEq, Prod.mk.injEq] at h
      rw [← h.1, ← h.2]; exact ⟨hl, hln, hq, hqn⟩
    · rw [if_neg h0] at h
      have hs := selfSubGreater_wf hl hln
        (mulInt (BI.ofMag cmp) (if n1 > 4294967295 then 4294967295 else n1) 0)
      have ha : (BI.ofMag (List.replicate shift 0 ++
          [if n1 > 4294967295 then 4294967295 else n1])).WF := by
        apply WF.ofMag
        · rw [digits_append]
          refine ⟨digits_replicate _, ?_⟩
          rw [digits_cons]
          refine ⟨?_, Digits.nil⟩
          split <;> (unfold base; omega)
        · apply topNZ_append _ (by simp)
          show _ ≠ 0
          split <;> omega
      exact ih hs.1 hs.2 (wf_selfAdd hq ha) (selfAdd_neg hqn) h

theorem divOuter_wf (op2 : List Nat) (k : Nat) :
    ∀ {left qr left' qr' : BI}, left.WF → left.neg = false → qr.WF → qr.neg = false →
      divOuter op2 k left qr = some (left', qr') → left'.WF ∧ qr'.WF := by
  induction k with
  | zero =>
    intro _ _ _ _ hl _ hq _ h
    simp only [divOuter, Option.some.injEq, Prod.mk.injEq] at h
    rw [← h.1, ← h.2]; exact ⟨hl, hq⟩
  | succ k ih =>
    intro left qr left' qr' hl hln hq hqn h
    rw [divOuter] at h
    split at h
    · simp at h
    · rename_i l q he
      obtain ⟨h1, h2, h3, h4⟩ := divInner_wf _ _ _ _ _ _ hl hln hq hqn he
      exact ih h1 h2 h3 h4 h

theorem wf_cond_negate {b : Prop} [Decidable b] {x : BI} (h : x.WF) :
    (if b then x.negate else x).WF := by
  split
  · exact WF.negate h
  · exact h

theorem div_wf {x y q r : BI} (hx : x.WF) (h : div x y = .ok q r) : q.WF ∧ r.WF := by
  unfold div at h
  split at h
  · simp at h
  split at h
  · simp only [DivResult.ok.injEq] at h; rw [← h.1, ← h.2]; exact ⟨WF.zero, WF.zero⟩
  split at h
  · simp only [DivResult.ok.injEq] at h; rw [← h.1, ← h.2]
    exact ⟨wf_cond_negate hx, WF.zero⟩
  · split at h
    · simp at h
    · rename_i left qr he
      obtain ⟨h1, h2⟩ := divOuter_wf _ _ (WF.abs hx) rfl WF.zero rfl he
      simp only [DivResult.ok.injEq] at h
      rw [← h.1, ← h.2]
      exact ⟨wf_cond_negate h2, wf_cond_negate h1⟩

theorem exponentiate_spec {x y : BI} (hx : x.WF) (hy : y.WF) (hyn : y.neg = false)
    (hy1 : y.mag.length ≤ 1) :
    ∃ r, exponentiate x y = .ok r ∧ r.WF ∧
      r.toInt = (if x.neg = true ∧ val x.mag ≠ 1 ∧ val y.mag = 1 then -1 else 1) *
        x.toInt ^ val y.mag := by
  unfold exponentiate
  rw [hyn]
  simp only [Bool.false_eq_true, if_false]
  by_cases hy0 : y.isZero = true
  · rw [if_pos hy0]
    have hm : y.mag = [] := by simpa [BI.isZero] using hy0
    refine ⟨_, rfl, by decide, ?_⟩
    rw [hm]; simp [val, toInt_ofMag]
  rw [if_neg hy0]
  have hm : y.mag ≠ [] := by simpa [BI.isZero] using hy0
  obtain ⟨e, he⟩ : ∃ e, y.mag = [e] := by
    match h : y.mag, hm, hy1 with
    | [e], _, _ => exact ⟨e, rfl⟩
  have hve : val y.mag = e := by rw [he]; simp [val]
  have he0 : e ≠ 0 := by have := hy.top; rw [he] at this; exact this
  have heb : e < base := by have := hy.digits; rw [he] at this; exact (digits_cons.1 this).1
  by_cases hx0 : x.isZero = true
  · rw [if_pos hx0]
    refine ⟨_, rfl, WF.zero, ?_⟩
    rw [toInt_of_isZero hx0, hve, zero_pow he0, toInt_zero]; ring
  rw [if_neg hx0, if_neg (by omega), hve]
  have hhd : y.mag.headD 0 = e := by rw [he]; rfl
  rw [hhd]
  refine ⟨_, rfl, ?_⟩
  have hxp : 0 < val x.mag := val_pos hx.top (fun h => hx0 (by simp [BI.isZero, h]))
  by_cases h1 : x.isOne = true
  · rw [if_pos h1]
    have hv := (isOne_iff hx).1 h1
    refine ⟨wf_cond_negate (by decide), ?_⟩
    cases hn : x.neg
    · simp [toInt_of_neg hn, hv, toInt_ofMag, val]
    · rcases Nat.even_or_odd e with hev | hod
      · have : ¬ e % 2 = 1 := by have := Nat.even_iff.1 hev; omega
        simp [toInt_of_neg hn, hv, toInt_ofMag, val, this, Even.neg_pow hev]
      · have : e % 2 = 1 := Nat.odd_iff.1 hod
        simp [toInt_of_neg hn, hv, toInt_ofMag, toInt_negate, val, this, Odd.neg_pow hod]
  rw [if_neg h1]
  have hv1 : val x.mag ≠ 1 := fun h => h1 ((isOne_iff hx).2 h)
  by_cases he1 : e = 1
  · subst he1
    simp only [if_true]
    refine ⟨wf_cond_negate hx, ?_⟩
    cases hn : x.neg
    · simp
    · simp [hv1, toInt_negate]
  · rw [if_neg he1]
    obtain ⟨h2, h3, h4⟩ := expLoop_spec (WF.abs hx) rfl 33 e (BI.ofMag [1]) (by decide) rfl
      (by omega) (by unfold base at heb; omega) (by omega)
    refine ⟨wf_cond_negate h2, ?_⟩
    have hd : (expLoop x.abs 33 e (BI.ofMag [1])).toInt = (val x.mag : Int) ^ e := by
      rw [toInt_of_neg h3, h4]; simp [BI.ofMag, val, BI.abs]
    have : ¬ (x.neg = true ∧ val x.mag ≠ 1 ∧ e = 1) := fun h => he1 h.2.2
    rw [if_neg this]
    cases hn : x.neg
    · simp [toInt_of_neg hn, hd]
    · rcases Nat.even_or_odd e with hev | hod
      · have : ¬ e % 2 = 1 := by have := Nat.even_iff.1 hev; omega
        simp [toInt_of_neg hn, hd, this, Even.neg_pow hev]
      · have : e % 2 = 1 := Nat.odd_iff.1 hod
        simp [toInt_of_neg hn, hd, toInt_negate, this, Odd.neg_pow hod]

theorem exponentiate_wf {x y r : BI} (hx : x.WF) (hy : y.WF) (h : exponentiate x y = .ok r) :
    r.WF := by
  have hyn : y.neg = false := by
    cases hn : y.neg
    · rfl
    · simp [exponentiate, hn] at h
  by_cases hy1 : y.mag.length ≤ 1
  · obtain ⟨r', h1, h2, _⟩ := exponentiate_spec hx hy hyn hy1
    rw [h1] at h; injection h with h; rw [← h]; exact h2
  · have hx0 : x.isZero = true := by
      by_contra hc
      have hz : ¬ y.isZero = true := by
        intro h0
        have : y.mag = [] := by simpa [BI.isZero] using h0
        rw [this] at hy1; simp at hy1
      have hl : y.mag.length > 1 := by omega
      simp [exponentiate, hyn, hz, hc, hl] at h
    have hz : ¬ y.isZero = true := by
      intro h0
      have : y.mag = [] := by simpa [BI.isZero] using h0
      rw [this] at hy1; simp at hy1
    simp [exponentiate, hyn, hz, hx0] at h
    rw [← h]; exact WF.zero

theorem shift_wf {x y r : BI} {rev : Bool} (hx : x.WF) (h : shift x y rev = .ok r) : r.WF := by
  by_cases hy1 : y.mag.length = 1
  · rw [shift_eq _ _ _ hy1] at h
    injection h with h
    rw [← h]
    generalize (if rev = true then !y.neg else y.neg) = c
    cases c
    · exact shlRes_wf hx _
    · exact shrRes_wf hx _
  · unfold shift at h
    split at h
    · injection h with h; rw [← h]; exact hx
    · rename_i hz
      have : y.mag.length > 1 := by
        have : y.mag ≠ [] := by simpa [BI.isZero] using hz
        have := List.length_pos_iff.2 this
        omega
      simp only [this, if_true] at h
      generalize (if rev = true then !y.neg else y.neg) = c at h
      cases c
      · simp at h
      · simp only [if_true, Res.ok.injEq] at h
        rw [← h]; split
        · decide
        · exact WF.zero

end Verif.BigInt
