import Verif.Lemmas.NumText2

/-!
Helper lemmas for C92: the texts.
-/
namespace Verif.NumText
open Spec
open NumStr (val_append val_zeros chr exponent_spec upLoop downLoop)
open NumStr.Spec (val chars)

theorem chars_append (a b : List Nat) : chars (a ++ b) = chars a ++ chars b := by simp [chars]
theorem chars_zeros (n : Nat) : chars (List.replicate n 0) = List.replicate n 48 := by simp [chars]
theorem chars_length (a : List Nat) : (chars a).length = a.length := by simp [chars]

theorem copyPad_spec : ∀ (n : Nat) (l : List Nat) (M : Nat), n ≤ l.length + M →
    copyPad n l = (chars ((l ++ List.replicate M 0).take n), l.drop n)
  | 0, l, M, _ => by simp [copyPad, chars]
  | n + 1, [], M, h => by
    obtain ⟨M, rfl⟩ : ∃ M', M = M' + 1 := ⟨M - 1, by simp at h; omega⟩
    have := copyPad_spec n [] M (by simp at h ⊢; omega)
    rw [copyPad, this]
    simp [List.replicate_succ, chars]
  | n + 1, d :: l, M, h => by
    have := copyPad_spec n l M (by simp at h ⊢; omega)
    rw [copyPad, this]
    simp [chars, chr]

theorem copy_spec : ∀ (n : Nat) (l : List Nat), n ≤ l.length → copy n l = some (chars (l.take n), l.drop n)
  | 0, l, _ => by simp [copy, chars]
  | n + 1, [], h => by simp at h
  | n + 1, d :: l, h => by
    have := copy_spec n l (by simpa using h)
    rw [copy, this]
    simp [chars, chr]

theorem copyLim_spec : ∀ (n frac : Nat) (l : List Nat), n ≤ l.length → n ≤ frac →
    copyLim n frac l = some (chars (l.take n), frac - n)
  | 0, frac, l, _, _ => by simp [copyLim, chars]
  | n + 1, frac, [], h, _ => by simp at h
  | n + 1, frac, d :: l, h, hf => by
    have := copyLim_spec n (frac - 1) l (by simpa using h) (by omega)
    rw [copyLim, if_neg (by omega), this]
    simp [chars, chr]
    omega

theorem expo_spec (nv : ℤ) : ∃ ex, Dec (nv - 1).natAbs ex ∧
    expo nv = [101] ++ [if nv - 1 < 0 then 45 else 43] ++ chars ex ∧ (-400 ≤ nv → nv ≤ 401 → ex.length ≤ 3) := by
  by_cases h0 : nv - 1 = 0
  · refine ⟨[0], ⟨by simp, by simp [h0, val], by simp, by simp⟩, ?_, by simp⟩
    have : nv = 1 := by omega
    subst this
    decide
  · have hl : (if nv - 1 < 0 then (1 - nv).toNat else (nv - 1).toNat) = (nv - 1).natAbs := by
      split <;> omega
    obtain ⟨l, e1, ⟨e2, e3, e4, e5⟩, e6⟩ := exponent_spec (nv - 1).natAbs (by omega)
    refine ⟨l, ⟨e2, e3, e5, fun h => absurd h e4⟩, ?_, fun r1 r2 => ?_⟩
    · unfold expo
      simp only
      rw [hl, e1]
      simp
    · refine Classical.byContradiction fun hc => ?_
      have h1 : 10 ^ 3 ≤ 10 ^ (l.length - 1) := Nat.pow_le_pow_right (by omega) (by omega)
      have h2 : (nv - 1).natAbs < 1000 := by omega
      omega

/-- The digits filled up with zeros. -/
def full (f : Nat) (ds : List Nat) : List Nat := ds ++ List.replicate (f + 1 - ds.length) 0

theorem full_digits {f : Nat} {ds : List Nat} (h : ∀ d ∈ ds, d < 10) (hl : ds.length ≤ f + 1) :
    DigitsOf f (val ds * 10 ^ (f + 1 - ds.length)) (full f ds) := by
  refine ⟨?_, by simp [full]; omega, ?_⟩
  · intro d hd
    rcases List.mem_append.1 hd with hd | hd
    · exact h d hd
    · rw [List.mem_replicate] at hd; omega
  · rw [full, val_append, val_zeros, List.length_replicate, Nat.add_zero]

theorem expText_of {f : Nat} {ds : List Nat} {nv : ℤ} (hne : ds ≠ []) (hl : ds.length ≤ f + 1) :
    ∃ t, (∀ a rest, copy 1 ds = some (a, rest) →
      a ++ (if f ≠ 0 then 46 :: (copyPad f rest).1 else []) ++ expo nv = t) ∧
      ExpText (full f ds) (nv - 1) t ∧ (-400 ≤ nv → nv ≤ 401 → t.length ≤ f + 8) := by
  obtain ⟨ex, x1, x2, x3⟩ := expo_spec nv
  obtain ⟨d, rest, rfl⟩ := List.exists_cons_of_ne_nil hne
  have hlr : rest.length ≤ f := by simpa using hl
  have hfull : full f (d :: rest) = d :: (rest ++ List.replicate (f - rest.length) 0) := by
    simp [full]
  have hlen : (rest ++ List.replicate (f - rest.length) 0).length = f := by simp; omega
  refine ⟨chars [d] ++ (if f ≠ 0 then 46 :: chars (rest ++ List.replicate (f - rest.length) 0) else []) ++ expo nv, ?_, ?_, ?_⟩
  · intro a r h
    rw [copy_spec 1 _ (by simp)] at h
    simp only [Option.some.injEq, Prod.mk.injEq] at h
    obtain ⟨rfl, rfl⟩ := h
    simp only [List.drop_succ_cons, List.drop_zero, List.take_succ_cons, List.take_zero]
    rw [copyPad_spec f rest (f - rest.length) (by omega)]
    simp only
    rw [List.take_of_length_le (by omega)]
  · refine ⟨d, _, ex, hfull, x1, ?_⟩
    rw [x2]
    by_cases hf : f = 0
    · have : rest ++ List.replicate (f - rest.length) 0 = [] := by
        rw [← List.length_eq_zero_iff]; omega
      rw [this]
      simp [hf]
    · have : rest ++ List.replicate (f - rest.length) 0 ≠ [] := by
        rw [Ne, ← List.length_eq_zero_iff]; omega
      rw [if_pos hf, if_neg this]
      simp
  · intro r1 r2
    have := x3 r1 r2
    have h9 : (if f ≠ 0 then 46 :: chars (rest ++ List.replicate (f - rest.length) 0) else []).length ≤ f + 1 := by
      split
      · rw [List.length_cons, chars_length, hlen]
      · simp
    rw [List.length_append, List.length_append, x2]
    simp only [List.length_append, chars_length, List.length_cons, List.length_nil]
    omega

theorem expBody_spec {f : Nat} {ds : List Nat} {nv : ℤ} (hne : ds ≠ []) (hl : ds.length ≤ f + 1) :
    ∃ t, expBody (f : ℤ) ds nv = some t ∧ ExpText (full f ds) (nv - 1) t ∧
      (-400 ≤ nv → nv ≤ 401 → t.length ≤ f + 8) := by
  obtain ⟨t, h1, h2, h3⟩ := expText_of (nv := nv) hne hl
  refine ⟨t, ?_, h2, h3⟩
  have hc : copy 1 ds = some (chars (ds.take 1), ds.drop 1) := copy_spec 1 ds (by
    have := List.length_pos_iff.2 hne; omega)
  have := h1 _ _ hc
  unfold expBody
  rw [hc]
  simp only [Option.some.injEq, Int.toNat_natCast]
  rw [← this]
  congr 2
  by_cases hf : f = 0
  · simp [hf]
  · rw [if_pos (by omega), if_pos hf]

theorem precBody_spec {f : Nat} {ds : List Nat} {nv : ℤ} (hne : ds ≠ []) (hl : ds.length ≤ f + 1) :
    ∃ t, precBody (f + 1) ds nv = some t ∧ PrecText (full f ds) (nv - 1) t ∧
      (-400 ≤ nv → nv ≤ 401 → t.length ≤ f + 10) := by
  have hfl : (full f ds).length = f + 1 := by simp [full]; omega
  have hcp : ∀ n, n ≤ f + 1 → copyPad n ds = (chars ((full f ds).take n), ds.drop n) := fun n hn =>
    copyPad_spec n ds _ (by omega)
  unfold precBody PrecText
  simp only
  rw [hfl]
  by_cases h1 : nv - 1 < -6 ∨ nv - 1 ≥ ((f + 1 : Nat) : ℤ)
  · rw [if_pos h1]
    obtain ⟨t, t1, t2, t3⟩ := expText_of (nv := nv) hne hl
    have hc : copy 1 ds = some (chars (ds.take 1), ds.drop 1) := copy_spec 1 ds (by
      have := List.length_pos_iff.2 hne; omega)
    refine ⟨t, ?_, by rw [if_pos h1]; exact t2, fun r1 r2 => by have := t3 r1 r2; omega⟩
    rw [hc, ← t1 _ _ hc]
    simp
  · rw [if_neg h1]
    simp only [if_neg h1]
    by_cases h2 : nv - 1 = ((f + 1 : Nat) : ℤ) - 1
    · rw [if_pos h2]
      simp only [if_pos (by omega : nv - 1 ≥ 0)]
      refine ⟨_, rfl, ?_, ?_⟩
      · rw [hcp _ (Nat.le_refl _), show (nv - 1).toNat + 1 = f + 1 by omega]
        simp
      · intro _ _
        rw [hcp _ (Nat.le_refl _)]
        simp only [chars_length, List.length_take]
        omega
    · rw [if_neg h2]
      by_cases h3 : nv - 1 ≥ 0
      · rw [if_pos h3]
        simp only [if_pos h3]
        have e1 : (nv - 1 + 1).toNat = (nv - 1).toNat + 1 := by omega
        rw [e1, hcp _ (by omega)]
        simp only
        have hdrop : (full f ds).drop ((nv - 1).toNat + 1) = ds.drop ((nv - 1).toNat + 1) ++
            List.replicate (f + 1 - ds.length - ((nv - 1).toNat + 1 - ds.length)) 0 := by
          rw [full, List.drop_append, List.drop_replicate]
        have hlen2 : ((full f ds).drop ((nv - 1).toNat + 1)).length = f - (nv - 1).toNat := by
          rw [List.length_drop, hfl]; omega
        rw [copyPad_spec _ (ds.drop ((nv - 1).toNat + 1)) (f + 1 - ds.length - ((nv - 1).toNat + 1 - ds.length)) (by
          have := congrArg List.length hdrop
          rw [hlen2, List.length_append, List.length_replicate] at this
          omega), ← hdrop]
        simp only
        rw [List.take_of_length_le (l := (full f ds).drop ((nv - 1).toNat + 1)) (by rw [hlen2]; omega)]
        refine ⟨_, rfl, ?_, ?_⟩
        · rw [if_neg (by omega)]
        · intro _ _
          simp only [List.length_append, List.length_cons, chars_length, List.length_take, hlen2]
          omega
      · rw [if_neg h3]
        simp only [if_neg h3]
        rw [hcp _ (Nat.le_refl _)]
        refine ⟨_, rfl, ?_, ?_⟩
        · simp only
          rw [List.take_of_length_le (by omega)]
        · intro _ _
          simp only [List.length_cons, List.length_append, List.length_replicate, chars_length, List.length_take]
          omega

theorem fixedBody_spec {f R : Nat} {ds : List Nat} {nv : ℤ} (hd : ∀ d ∈ ds, d < 10)
    (h : ds = [] ∧ nv = -(f : ℤ) ∧ R = 0 ∨
      ((∃ x, ds.head? = some x ∧ x ≠ 0) ∨ ds = [0] ∧ nv = 1) ∧ (ds.length : ℤ) ≤ f + nv ∧
        val ds * 10 ^ (f + nv - ds.length).toNat = R) :
    ∃ t, fixedBody f ds nv = some t ∧ FixedText f R t ∧ (nv ≤ 22 → t.length ≤ f + 24) := by
  unfold fixedBody
  simp only
  rcases h with ⟨rfl, rfl, rfl⟩ | ⟨hx, hl, hv⟩
  · by_cases hf : f = 0
    · subst hf
      refine ⟨[48], by decide, ⟨[0], [], by simp, by simp, by simp, rfl, rfl, by decide⟩, by simp⟩
    · rw [if_neg (by simp; omega), if_neg (by omega), if_pos (by omega)]
      rw [show min (-(-(f : ℤ))).toNat f = f by omega, Nat.sub_self]
      refine ⟨_, rfl, ⟨[0], List.replicate f 0, ?_, by simp, by simp, by simp, ?_, ?_⟩, ?_⟩
      · intro d hd
        simp only [List.singleton_append, List.mem_cons, List.mem_replicate] at hd
        omega
      · simp [val, val_zeros]
      · rw [if_neg hf, chars_zeros]
        simp [chars]
      · intro _; simp
  · have hlen : 0 < ds.length := by
      rcases hx with ⟨x, hx, -⟩ | ⟨rfl, -⟩
      · cases ds with
        | nil => cases hx
        | cons => simp
      · simp
    have hhead : ds.head? = some 0 → ds = [0] ∧ nv = 1 := by
      intro h0
      rcases hx with ⟨x, hx, hx0⟩ | h
      · rw [hx, Option.some.injEq] at h0; exact absurd h0 hx0
      · exact h
    by_cases h1 : (ds.length : ℤ) ≤ nv
    · rw [if_pos h1, if_pos (by omega), copy_spec _ _ (Nat.le_refl _)]
      simp only [Option.map_some, List.take_length]
      refine ⟨_, rfl, ⟨ds ++ List.replicate (nv - ds.length).toNat 0, List.replicate f 0, ?_, ?_, ?_, by simp, ?_, ?_⟩, ?_⟩
      · intro d hm
        simp only [List.mem_append, List.mem_replicate] at hm
        rcases hm with (hm | hm) | hm
        · exact hd d hm
        · omega
        · omega
      · intro hc
        rw [List.append_eq_nil_iff] at hc
        rw [hc.1] at hlen; simp at hlen
      · intro hc
        have hne : ds ≠ [] := List.length_pos_iff.1 hlen
        rw [List.head?_append_of_ne_nil _ hne] at hc
        obtain ⟨rfl, rfl⟩ := hhead hc
        simp
      · rw [val_append, val_append, val_zeros, val_zeros, List.length_replicate, List.length_replicate, Nat.add_zero,
          Nat.add_zero, Nat.mul_assoc, ← Nat.pow_add, ← hv]
        congr 2
        omega
      · rw [chars_append, chars_zeros, chars_zeros]
        by_cases hf : f = 0
        · simp [hf]
        · rw [if_pos (by omega), if_neg hf]; simp
      · intro hn
        rw [List.length_append, List.length_append, List.length_append, chars_length, List.length_replicate, List.length_replicate]
        have : (if f > 0 then [46] else []).length ≤ 1 := by split <;> simp
        omega
    · rw [if_neg h1]
      have hf : 0 < f := by omega
      have hx' : ds.head? ≠ some 0 := by
        intro hc
        obtain ⟨rfl, rfl⟩ := hhead hc
        simp at h1
      by_cases h2 : nv > 0
      · rw [if_pos h2, copy_spec _ _ (by omega)]
        simp only
        rw [if_pos hf, copyLim_spec _ _ _ (by rw [List.length_drop]; omega) (by omega)]
        simp only
        rw [List.take_of_length_le (l := ds.drop nv.toNat) (by rw [List.length_drop]; omega)]
        have hne : ds.take nv.toNat ≠ [] := by
          rw [Ne, List.take_eq_nil_iff]
          rintro (hc | hc)
          · omega
          · rw [hc] at hlen; simp at hlen
        refine ⟨_, rfl, ⟨ds.take nv.toNat, ds.drop nv.toNat ++ List.replicate (f - (ds.length - nv).toNat) 0, ?_, hne, ?_, ?_, ?_, ?_⟩, ?_⟩
        · intro d hm
          simp only [List.mem_append, List.mem_replicate] at hm
          rcases hm with hm | hm | hm
          · exact hd d (List.mem_of_mem_take hm)
          · exact hd d (List.mem_of_mem_drop hm)
          · omega
        · intro hc
          rw [List.head?_take, if_neg (by omega)] at hc
          exact absurd hc hx'
        · rw [List.length_append, List.length_drop, List.length_replicate]; omega
        · rw [← List.append_assoc, List.take_append_drop, val_append, val_zeros, List.length_replicate, Nat.add_zero, ← hv]
          congr 2
          omega
        · rw [if_neg (by omega), chars_append, chars_zeros]
        · intro hn
          simp only [List.length_append, List.length_cons, chars_length, List.length_take, List.length_drop, List.length_replicate]
          omega
      · rw [if_neg h2, if_pos hf]
        rw [show min (-nv).toNat f = (-nv).toNat by omega,
          copyLim_spec _ _ _ (Nat.le_refl _) (by omega)]
        simp only [List.take_length]
        refine ⟨_, rfl, ⟨[0], List.replicate (-nv).toNat 0 ++ (ds ++ List.replicate (f - (-nv).toNat - ds.length) 0), ?_, by simp, by simp, ?_, ?_, ?_⟩, ?_⟩
        · intro d hm
          simp only [List.singleton_append, List.mem_cons, List.mem_append, List.mem_replicate] at hm
          rcases hm with hm | hm | hm | hm
          · omega
          · omega
          · exact hd d hm
          · omega
        · simp only [List.length_append, List.length_replicate]; omega
        · rw [List.singleton_append, val, val_append, val_zeros, val_append, val_zeros, List.length_replicate, ← hv]
          simp only [Nat.zero_mul, Nat.zero_add, Nat.add_zero]
          congr 2
          omega
        · rw [if_neg (by omega), chars_append, chars_append, chars_zeros, chars_zeros]
          simp [chars]
        · intro hn
          simp only [List.length_append, List.length_cons, chars_length, List.length_replicate]
          omega

theorem digitChar_spec {n : Nat} (h : n < 36) : radixDigit n (digitChar n) := by
  unfold digitChar
  split
  · exact Or.inl ⟨by omega, by omega⟩
  · exact Or.inr ⟨by omega, h, by omega⟩

theorem radixLoop_spec (r : Nat) (h2 : 2 ≤ r) (h36 : r ≤ 36) : ∀ (fuel left : Nat) (acc : List Nat), left < fuel →
    ∃ s, RadixText r left s ∧ radixLoop r fuel left acc = s ++ acc
  | 0, left, acc, h => by omega
  | fuel + 1, left, acc, h => by
    unfold radixLoop
    by_cases hl : left < r
    · rw [if_pos hl]
      exact ⟨[digitChar left], .one _ _ hl (digitChar_spec (by omega)), rfl⟩
    · rw [if_neg hl]
      have hlt : left / r < left := Nat.div_lt_self (by omega) (by omega)
      obtain ⟨s, e1, e2⟩ := radixLoop_spec r h2 h36 fuel (left / r) (digitChar (left % r) :: acc) (by omega)
      have hm : left % r < r := Nat.mod_lt _ (by omega)
      refine ⟨s ++ [digitChar (left % r)], ?_, by rw [e2]; simp⟩
      have := RadixText.more (r := r) (left / r) (left % r) _ s (Nat.div_pos (by omega) (by omega)) e1 hm
        (digitChar_spec (by omega))
      rwa [Nat.mul_comm, Nat.div_add_mod] at this

theorem radixText_length {r : Nat} (h2 : 2 ≤ r) {n : Nat} {s : List Nat} (h : RadixText r n s) :
    s.length = 1 ∨ 2 ≤ s.length ∧ 2 ^ (s.length - 1) ≤ n := by
  induction h with
  | one n c => exact Or.inl rfl
  | more n d c s hn _ hd _ ih =>
    refine Or.inr ⟨by rw [List.length_append, List.length_singleton]; rcases ih with ih | ih <;> omega, ?_⟩
    rw [List.length_append, List.length_singleton, Nat.add_sub_cancel]
    have hnr : n * 2 ≤ n * r := Nat.mul_le_mul_left _ h2
    rcases ih with ih | ⟨ih1, ih2⟩
    · rw [ih]; omega
    · rw [show s.length = s.length - 1 + 1 by omega, Nat.pow_succ]
      omega

theorem out_text (neg : Bool) (t : List Nat) (h : t.length ≤ 250) : out neg (some t) = .text (signed neg t) := by
  unfold out signed
  simp only
  rw [if_pos (by cases neg <;> simp <;> omega)]

theorem out_not (neg : Bool) (o : Option (List Nat)) : out neg o ≠ .rangeError ∧ out neg o ≠ .typeError ∧ out neg o ≠ .thrown := by
  cases o with
  | none => simp [out]
  | some t =>
    simp only [out]
    split <;> split <;> simp

end Verif.NumText
