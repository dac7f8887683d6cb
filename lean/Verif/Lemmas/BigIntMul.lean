import Verif.Lemmas.BigIntSub
/-
Helper lemmas about multiplication, exponentiation and string conversion of the
big integer model.
-/
namespace Verif.BigInt

theorem val_shift (n : Nat) (l : List Nat) : val (List.replicate n 0 ++ l) = base ^ n * val l := by
  rw [val_append, val_replicate, List.length_replicate]; omega

theorem mulInt_spec {x : BI} (hx : x.WF) (hx0 : x.mag ≠ []) {n : Nat} (hn : n < base) (sh : Nat) :
    (mulInt x n sh).WF ∧ val (mulInt x n sh).mag = base ^ sh * (val x.mag * n) ∧
      (mulInt x n sh).neg = (x.neg && (n == 1) && (sh == 0)) := by
  unfold mulInt
  split
  · rename_i h; subst h; exact ⟨WF.zero, by simp [BI.zero], by simp [BI.zero]⟩
  · split
    · rename_i h; obtain ⟨rfl, rfl⟩ := h
      exact ⟨hx, by simp, by simp⟩
    · rename_i h0 h1
      obtain ⟨h2, h3, h4, h5⟩ := mulLoop_spec hn x.mag 0 hx.digits (by decide)
      refine ⟨WF.ofMag (digits_append.2 ⟨digits_replicate _, h3⟩)
        (topNZ_append (h4 h0 hx.top) (h5 hx0)), ?_, ?_⟩
      · simp only [BI.ofMag]; rw [val_shift, h2]; ring
      · simp only [BI.ofMag]
        cases x.neg <;> simp
        omega

theorem mulInt_pos {x : BI} (hx : x.WF) (hxn : x.neg = false) {n : Nat} (hn : n < base) :
    (mulInt x n 0).WF ∧ val (mulInt x n 0).mag = val x.mag * n ∧ (mulInt x n 0).neg = false := by
  by_cases h : x.mag = []
  · have : mulInt x n 0 = BI.zero := by
      unfold mulInt
      cases x; simp_all [mulLoop, BI.zero, BI.ofMag]
    rw [this]; exact ⟨WF.zero, by simp [BI.zero, h], rfl⟩
  · obtain ⟨h1, h2, h3⟩ := mulInt_spec hx h hn 0
    exact ⟨h1, by simpa using h2, by rw [h3, hxn]; rfl⟩

theorem mulRows_spec {x : BI} (hx : x.WF) (hx0 : x.mag ≠ []) (ns : List Nat) (i : Nat) (sum : BI)
    (hns : Digits ns) (hs : sum.WF) (hi : i ≠ 0) :
    (mulRows x ns i sum).WF ∧
      val (mulRows x ns i sum).mag = val sum.mag + base ^ i * (val x.mag * val ns) ∧
      (mulRows x ns i sum).neg = sum.neg := by
  induction ns generalizing i sum with
  | nil => exact ⟨hs, by simp [mulRows], rfl⟩
  | cons n ns ih =>
    rw [digits_cons] at hns
    rw [mulRows]
    obtain ⟨h1, h2, h3⟩ := mulInt_spec hx hx0 hns.1 i
    simp only [hi, if_false]
    obtain ⟨g1, g2, g3⟩ := ih (i + 1) (selfAdd sum (mulInt x n i)) hns.2 (wf_selfAdd hs h1)
      (by omega)
    refine ⟨g1, ?_, ?_⟩
    · rw [g2, val_selfAdd hs h1, h2, val_cons, pow_succ]; ring
    · rw [g3, selfAdd]
      simp only
      split
      · rename_i h; exact (hs.sign h).symm
      · rfl

theorem isOne_iff {x : BI} (hx : x.WF) : x.isOne = true ↔ val x.mag = 1 := by
  unfold BI.isOne
  rw [decide_eq_true_iff]
  constructor
  · intro h; simp [h]
  · intro h
    exact val_inj hx.digits hx.top (b := [1]) (by decide) (by decide) (by simp [h])

theorem toInt_natAbs (x : BI) : x.toInt.natAbs = val x.mag := by
  unfold BI.toInt; split <;> omega

/-- The sign error of `bi_mul`: a negative first operand other than `-1` and a second
operand of at least two limbs whose lowest limb is one. -/
theorem mul_spec {x y : BI} (hx : x.WF) (hy : y.WF) :
    (mul x y).WF ∧
    (mul x y).toInt =
      (if x.neg = true ∧ val x.mag ≠ 1 ∧ val y.mag ≠ 1 ∧ y.mag.headD 0 = 1 then -1 else 1) *
        (x.toInt * y.toInt) := by
  unfold mul
  split
  · rename_i h
    refine ⟨WF.zero, ?_⟩
    rw [toInt_zero]
    rcases Bool.or_eq_true_iff.1 h with h | h <;> simp [toInt_of_isZero h]
  · rename_i h
    have hxz : x.mag ≠ [] := by
      intro h'; exact h (by simp [BI.isZero, h'])
    have hyz : y.mag ≠ [] := by
      intro h'; exact h (by simp [BI.isZero, h'])
    split
    · rename_i h1
      have h1' := (isOne_iff hx).1 h1
      refine ⟨?_, ?_⟩
      · split
        · exact WF.negate hy
        · exact hy
      · rw [toInt_cond_negate]
        unfold BI.toInt; rw [h1']
        cases x.neg <;> cases y.neg <;> simp
    · rename_i h1
      split
      · rename_i h2
        have h2' := (isOne_iff hy).1 h2
        refine ⟨?_, ?_⟩
        · split
          · exact WF.negate hx
          · exact hx
        · rw [toInt_cond_negate]
          unfold BI.toInt; rw [h2']
          cases x.neg <;> cases y.neg <;> simp
      · rename_i h2
        have h1' : val x.mag ≠ 1 := fun h => h1 ((isOne_iff hx).2 h)
        have h2' : val y.mag ≠ 1 := fun h => h2 ((isOne_iff hy).2 h)
        obtain ⟨n, ns, hyn⟩ := List.exists_cons_of_ne_nil hyz
        have hd := hy.digits
        rw [hyn, digits_cons] at hd
        obtain ⟨a1, a2, a3⟩ := mulInt_spec hx hxz hd.1 0
        obtain ⟨b1, b2, b3⟩ := mulRows_spec hx hxz ns 1 (mulInt x n 0) hd.2 a1 (by omega)
        have hrow : mulRows x y.mag 0 BI.zero = mulRows x ns 1 (mulInt x n 0) := by
          rw [hyn, mulRows]; simp
        simp only [hrow]
        generalize hS : mulRows x ns 1 (mulInt x n 0) = S at *
        have hv : val S.mag = val x.mag * val y.mag := by
          rw [b2, a2, hyn, val_cons]; ring
        have hS0 : S.mag ≠ [] := by
          intro h0
          rw [h0] at hv
          have p1 := val_pos hx.top hxz
          have p2 := val_pos hy.top hyz
          have := Nat.mul_pos p1 p2
          simp at hv; omega
        have hneg : S.neg = (x.neg && (n == 1)) := by rw [b3, a3]; simp
        refine ⟨?_, ?_⟩
        · split
          · exact WF.negate b1
          · exact b1
        · have hhd : y.mag.headD 0 = n := by rw [hyn]; rfl
          rw [hhd]
          have : ∀ (p : Prop) [Decidable p] (d : BI),
              (if p then d.negate else d).toInt = if p then - d.toInt else d.toInt := by
            intro p _ d; split <;> simp [toInt_negate]
          rw [this]
          simp only [BI.toInt, hv, hneg]
          by_cases hn1 : n = 1 <;> cases x.neg <;> cases y.neg <;> simp [hn1, h1', h2']

theorem mul_pos_spec {x y : BI} (hx : x.WF) (hy : y.WF) (hxn : x.neg = false)
    (hyn : y.neg = false) :
    (mul x y).WF ∧ (mul x y).neg = false ∧ val (mul x y).mag = val x.mag * val y.mag := by
  obtain ⟨h1, h2⟩ := mul_spec hx hy
  simp [hxn] at h2
  have hv : val (mul x y).mag = val x.mag * val y.mag := by
    rw [← toInt_natAbs, h2, Int.natAbs_mul, toInt_natAbs, toInt_natAbs]
  refine ⟨h1, ?_, hv⟩
  by_contra hc
  have hc : (mul x y).neg = true := by simpa using hc
  have : (mul x y).mag ≠ [] := fun h => by rw [h1.sign h] at hc; cases hc
  have := val_pos h1.top this
  have e1 : (mul x y).toInt = -(val (mul x y).mag : Int) := by rw [toInt_of_neg hc]; simp
  have e2 : (mul x y).toInt = val x.mag * val y.mag := by
    rw [h2, toInt_of_neg hxn, toInt_of_neg hyn]; simp
  rw [e2, hv] at e1
  push_cast at e1
  rw [hv] at this
  have : (0 : Int) < val x.mag * val y.mag := by exact_mod_cast this
  omega

/-! ### exponentiation -/

theorem sqPow_spec {b : BI} (hb : b.WF) (hbn : b.neg = false) (k : Nat) :
    (sqPow b k).WF ∧ (sqPow b k).neg = false ∧ val (sqPow b k).mag = val b.mag ^ 2 ^ k := by
  induction k with
  | zero => exact ⟨hb, hbn, by simp [sqPow]⟩
  | succ k ih =>
    obtain ⟨h1, h2, h3⟩ := ih
    obtain ⟨g1, g2, g3⟩ := mul_pos_spec h1 h1 h2 h2
    refine ⟨g1, g2, ?_⟩
    rw [sqPow, g3, h3, ← pow_add]
    congr 1
    rw [pow_succ]; omega

theorem topPow_spec (e f v s : Nat) (hv : v = 2 ^ s) (hle : v ≤ e) (hf : e < 2 ^ (s + f + 1)) :
    (topPow e f v s).1 = 2 ^ (topPow e f v s).2 ∧ (topPow e f v s).1 ≤ e ∧
      e < 2 * (topPow e f v s).1 := by
  induction f generalizing v s with
  | zero =>
    simp only [topPow]
    refine ⟨hv, hle, ?_⟩
    rw [hv]; rw [Nat.add_zero, pow_succ] at hf; omega
  | succ f ih =>
    rw [topPow]
    split
    · exact ⟨hv, hle, by assumption⟩
    · split
      · rename_i h1 h2
        refine ⟨by simp only; rw [hv, pow_succ]; ring, by simp only; omega, ?_⟩
        have : 0 < v := by rw [hv]; exact Nat.pow_pos (by omega)
        simp only; omega
      · rename_i h1 h2
        apply ih
        · rw [hv, pow_succ]; ring
        · omega
        · rw [show s + 1 + f + 1 = s + (f + 1) + 1 by ring]; exact hf

theorem expLoop_spec {b : BI} (hb : b.WF) (hbn : b.neg = false) (f e : Nat) (res : BI)
    (hr : res.WF) (hrn : res.neg = false) (he : 0 < e) (hf : e < 2 ^ f) (hfm : f ≤ 33) :
    (expLoop b f e res).WF ∧ (expLoop b f e res).neg = false ∧
      val (expLoop b f e res).mag = val b.mag ^ e * val res.mag := by
  induction f generalizing e res with
  | zero => simp at hf; omega
  | succ f ih =>
    have he33 : e < 2 ^ (0 + 32 + 1) :=
      lt_of_lt_of_le hf (Nat.pow_le_pow_right (by omega) (by omega))
    obtain ⟨h1, h2, h3⟩ := topPow_spec e 32 1 0 rfl he he33
    rw [expLoop]
    generalize topPow e 32 1 0 = p at *
    obtain ⟨v, s⟩ := p
    simp only at *
    obtain ⟨a1, a2, a3⟩ := sqPow_spec hb hbn s
    obtain ⟨b1, b2, b3⟩ := mul_pos_spec a1 hr a2 hrn
    split
    · rename_i hgt
      have hlt : e - v < 2 ^ f := by
        have : v < 2 ^ (f + 1) := by omega
        have hs : s ≤ f := by
          by_contra hc
          have : 2 ^ (f + 1) ≤ 2 ^ s := Nat.pow_le_pow_right (by omega) (by omega)
          omega
        have : v ≤ 2 ^ f := by rw [h1]; exact Nat.pow_le_pow_right (by omega) hs
        rw [pow_succ] at hf
        by_contra hc
        -- e - v ≥ 2^f gives e ≥ v + 2^f, but e < 2 v ≤ 2^(f+1)
        omega
      obtain ⟨c1, c2, c3⟩ := ih (e - v) (mul (sqPow b s) res) b1 b2 (by omega) hlt (by omega)
      refine ⟨c1, c2, ?_⟩
      rw [c3, b3, a3, ← h1, ← Nat.mul_assoc, ← pow_add]
      congr 2; omega
    · refine ⟨b1, b2, ?_⟩
      rw [b3, a3, ← h1]
      congr 2; omega

/-! ### string conversion -/

theorem divInt_spec {x : BI} (hx : x.WF) {n : Nat} (hn : 0 < n) (hnb : n ≤ base) :
    (divInt x n).1.WF ∧ val (divInt x n).1.mag = val x.mag / n ∧
      (divInt x n).2 = val x.mag % n := by
  obtain ⟨h1, h2, h3, _⟩ := divIntLoop_spec hn hnb x.mag.reverse 0
    (by intro d hd; exact hx.digits d (by simpa using hd)) hn
  unfold divInt
  generalize divIntLoop n x.mag.reverse 0 = p at *
  obtain ⟨q, r⟩ := p
  simp only at *
  refine ⟨WF.strip (by intro d hd; exact h3 d (by simpa [BI.ofMag] using hd)), ?_, ?_⟩
  · rw [mag_bistrip, val_strip]; simp only [BI.ofMag]; rw [h1]; simp
  · rw [h2]; simp

theorem evalDigits_append (radix : Nat) (a : List Nat) (d : Nat) :
    evalDigits radix (a ++ [d]) = evalDigits radix a * radix + d := by
  simp [evalDigits]

theorem toDigitsLoop_spec {radix : Nat} (hr : 2 ≤ radix) (hrb : radix ≤ base) (fuel : Nat) (x : BI)
    (hx : x.WF) (hf : val x.mag < 2 ^ fuel) :
    evalDigits radix (toDigitsLoop radix fuel x).reverse = val x.mag ∧
      (∀ d ∈ toDigitsLoop radix fuel x, d < radix) ∧ TopNZ (toDigitsLoop radix fuel x) ∧
      (val x.mag ≠ 0 → toDigitsLoop radix fuel x ≠ []) := by
  induction fuel generalizing x with
  | zero =>
    have : val x.mag = 0 := by simpa using hf
    simp [toDigitsLoop, evalDigits, this, TopNZ]
  | succ f ih =>
    rw [toDigitsLoop]
    split
    · rename_i h
      have h0 : x.mag = [] := by simpa [BI.isZero] using h
      simp [evalDigits, h0, TopNZ]
    · rename_i h
      have hne : x.mag ≠ [] := by simpa [BI.isZero] using h
      have hpos := val_pos hx.top hne
      obtain ⟨d1, d2, d3⟩ := divInt_spec hx (n := radix) (by omega) hrb
      generalize divInt x radix = p at *
      obtain ⟨q, r⟩ := p
      simp only at *
      have hlt : val q.mag < 2 ^ f := by
        rw [d2, Nat.div_lt_iff_lt_mul (by omega)]
        rw [pow_succ] at hf
        calc val x.mag < 2 ^ f * 2 := hf
          _ ≤ 2 ^ f * radix := Nat.mul_le_mul_left _ hr
      obtain ⟨g1, g2, g3, g4⟩ := ih q d1 hlt
      refine ⟨?_, ?_, ?_, by simp⟩
      · rw [List.reverse_cons, evalDigits_append, g1, d2, d3, Nat.mul_comm]
        exact Nat.div_add_mod _ _
      · intro d hd
        rcases List.mem_cons.1 hd with h | h
        · rw [h, d3]; exact Nat.mod_lt _ (by omega)
        · exact g2 d h
      · apply topNZ_cons' g3
        intro hnil
        have hq0 : val q.mag = 0 := by
          by_contra hc; exact g4 hc hnil
        rw [d2] at hq0
        rw [d3]
        have hlt : val x.mag < radix := by
          by_contra hc
          have := Nat.div_pos (not_lt.1 hc) (by omega : 0 < radix)
          omega
        rw [Nat.mod_eq_of_lt hlt]
        omega

theorem selfAddInt_spec {x : BI} (hx : x.WF) {n : Nat} (hn : n < base) :
    (selfAddInt x n).WF ∧ val (selfAddInt x n).mag = val x.mag + n ∧
      (x.neg = false → (selfAddInt x n).neg = false) := by
  obtain ⟨h1, h2, h3⟩ := selfAddLoop_spec x.mag n hx.digits hn
  refine ⟨⟨h2, h3 hx.top, ?_⟩, h1, ?_⟩
  · intro h
    by_cases h0 : x.mag = []
    · simp [selfAddInt, h0]
    · have : val (selfAddInt x n).mag = 0 := by rw [h]; rfl
      simp only [selfAddInt] at this
      have := val_pos hx.top h0
      omega
  · intro h; simp [selfAddInt, h]

theorem fromDigits_spec {radix : Nat} (hrb : radix < base) (ds : List Nat)
    (acc : BI) (hd : ∀ d ∈ ds, d < radix) (ha : acc.WF) (han : acc.neg = false) :
    (fromDigits radix ds acc).WF ∧ (fromDigits radix ds acc).neg = false ∧
      val (fromDigits radix ds acc).mag = ds.foldl (fun a d => a * radix + d) (val acc.mag) := by
  induction ds generalizing acc with
  | nil => exact ⟨ha, han, rfl⟩
  | cons d ds ih =>
    obtain ⟨m1, m2, m3⟩ := mulInt_pos ha han hrb
    have hdlt : d < radix := hd d (by simp)
    obtain ⟨s1, s2, s3⟩ := selfAddInt_spec m1 (n := d) (by omega)
    obtain ⟨i1, i2, i3⟩ := ih (selfAddInt (mulInt acc radix 0) d)
      (fun d' h' => hd d' (by simp [h'])) s1 (s3 m3)
    refine ⟨i1, i2, ?_⟩
    rw [fromDigits, i3, s2, m2]; rfl

end Verif.BigInt
