import Verif.Lemmas.BigInt
/-
Helper lemmas about the subtraction loops of the big integer model.
-/
namespace Verif.BigInt

theorem val_head_tail (b : List Nat) : val b = b.headD 0 + base * val b.tail := by
  cases b <;> simp

theorem digits_headD {b : List Nat} (h : Digits b) : b.headD 0 < base := by
  cases b with
  | nil => decide
  | cons x xs => exact (digits_cons.1 h).1

theorem digits_tail {b : List Nat} (h : Digits b) : Digits b.tail := by
  cases b with
  | nil => exact h
  | cons x xs => exact (digits_cons.1 h).2

theorem subLoop_cons (x : Nat) (xs b : List Nat) (l : Nat) :
    subLoop (x :: xs) b l =
      (subStep x (b.headD 0) l).1 :: subLoop xs b.tail (subStep x (b.headD 0) l).2 := by
  cases b <;> simp [subLoop]

theorem subStep_lt {x y l : Nat} (hx : x < base) (hy : y < base) (hl : l ≤ 1) (h : x < y + l) :
    subStep x y l = (base + x - y - l, 1) := by
  unfold subStep
  have : (x : Int) - y - l < 0 := by omega
  simp only [this, if_true]
  congr 1
  unfold base at *; omega

theorem subStep_ge {x y l : Nat} (hx : x < base) (h : y + l ≤ x) :
    subStep x y l = (x - y - l, l) := by
  unfold subStep
  have : ¬ ((x : Int) - y - l < 0) := by omega
  simp only [this, if_false]
  congr 1
  unfold base at *; omega

theorem selfSubLoop_nil_zero (a : List Nat) (h : Digits a) : subLoop a [] 0 = a := by
  induction a with
  | nil => rfl
  | cons x xs ih =>
    rw [digits_cons] at h
    rw [subLoop_cons]
    simp only [List.headD_nil, List.tail_nil]
    rw [subStep_ge h.1 (by omega)]
    simp [ih h.2]

theorem selfSubLoop_eq (a b : List Nat) (l : Nat) (ha : Digits a) :
    selfSubLoop a b l = subLoop a b l := by
  induction a generalizing b l with
  | nil => rfl
  | cons x xs ih =>
    rw [digits_cons] at ha
    cases b with
    | nil =>
      simp only [selfSubLoop, subLoop, ih _ _ ha.2]
      split
      · rename_i h; rw [h, selfSubLoop_nil_zero _ ha.2]
      · rfl
    | cons y ys => simp [selfSubLoop, subLoop, ih _ _ ha.2]

theorem subLoop_digits (a b : List Nat) (l : Nat) : Digits (subLoop a b l) := by
  have hs : ∀ x y l, (subStep x y l).1 < base := by
    intro x y l; unfold subStep
    simp only
    split <;> exact Nat.mod_lt _ (by decide)
  induction a generalizing b l with
  | nil =>
    induction b generalizing l with
    | nil => exact Digits.nil
    | cons y ys ih => simp only [subLoop, subTail]; rw [digits_cons]; exact ⟨hs _ _ _, ih _⟩
  | cons x xs ih => rw [subLoop_cons, digits_cons]; exact ⟨hs _ _ _, ih _ _⟩

theorem subLoop_length (a b : List Nat) (l : Nat) (h : b.length ≤ a.length) :
    (subLoop a b l).length = a.length := by
  induction a generalizing b l with
  | nil => cases b with
    | nil => rfl
    | cons _ _ => simp at h
  | cons x xs ih =>
    rw [subLoop_cons, List.length_cons, ih]
    · rfl
    · simp at *; omega

theorem mod_base_pow_succ {x X : Nat} (hx : x < base) (i : Nat) :
    (x + base * X) % base ^ (i + 1) = x + base * (X % base ^ i) := by
  rw [pow_succ, Nat.mul_comm (base ^ i) base, Nat.mod_mul]
  have h1 : (x + base * X) % base = x := by unfold base at *; omega
  have h2 : (x + base * X) / base = X := by unfold base at *; omega
  rw [h1, h2]

/-- Borrow condition with an incoming borrow `l`. -/
def Contig (a b n l : Nat) : Prop :=
  ∀ i j, i < j → j < n → a % base ^ i < b % base ^ i + l → a % base ^ j < b % base ^ j + l

theorem contig_succ {x y X Y n l : Nat} (hx : x < base) (hy : y < base) (hl : l ≤ 1) :
    Contig (x + base * X) (y + base * Y) (n + 1) l ↔
      (n ≠ 0 → l = 1 → x < y + l) ∧ Contig X Y n (if x < y + l then 1 else 0) := by
  have step : ∀ i, ((x + base * X) % base ^ (i + 1) < (y + base * Y) % base ^ (i + 1) + l) ↔
      (X % base ^ i < Y % base ^ i + (if x < y + l then 1 else 0)) := by
    intro i
    rw [mod_base_pow_succ hx, mod_base_pow_succ hy]
    generalize X % base ^ i = p
    generalize Y % base ^ i = q
    split <;> unfold base at * <;> omega
  constructor
  · intro h
    constructor
    · intro hn hl1
      have := h 0 1 (by omega) (by omega) (by simp [Nat.mod_one]; omega)
      rw [step 0] at this
      simp only [pow_zero, Nat.mod_one] at this
      by_contra hc
      rw [if_neg hc] at this
      omega
    · intro i j hij hj hi
      rw [← step] at *
      exact h (i + 1) (j + 1) (by omega) (by omega) hi
  · rintro ⟨h1, h2⟩ i j hij hj hi
    obtain ⟨j, rfl⟩ : ∃ k, j = k + 1 := ⟨j - 1, by omega⟩
    rw [step]
    cases i with
    | zero =>
      simp [Nat.mod_one] at hi
      have hl1 : l = 1 := by omega
      have hc := h1 (by omega) hl1
      cases j with
      | zero => simp [Nat.mod_one, hc]
      | succ j =>
        apply h2 0 (j + 1) (by omega) (by omega)
        simp [Nat.mod_one, hc]
    | succ i =>
      rw [step] at hi
      exact h2 i j (by omega) (by omega) hi

/-- The subtraction loop is exact precisely under the borrow condition.  `c` is the
borrow out of the top. -/
theorem subLoop_exact (a b : List Nat) (l : Nat) (ha : Digits a) (hb : Digits b)
    (hlen : b.length ≤ a.length) (hl : l ≤ 1) :
    (val (subLoop a b l) + val b + l = val a ∨
      val (subLoop a b l) + val b + l = val a + base ^ a.length) ↔
      Contig (val a) (val b) a.length l := by
  induction a generalizing b l with
  | nil =>
    cases b with
    | nil =>
      simp [subLoop, subTail, Contig]
      omega
    | cons _ _ => simp at hlen
  | cons x xs ih =>
    rw [digits_cons] at ha
    have hx := ha.1
    have hy := digits_headD hb
    have hb' := digits_tail hb
    rw [subLoop_cons, val_head_tail b, val_cons, List.length_cons, val_cons, contig_succ hx hy hl]
    generalize b.headD 0 = y at *
    have hlen' : b.tail.length ≤ xs.length := by simp at *; omega
    generalize b.tail = ys at *
    have hP : base ^ (xs.length + 1) = base * base ^ xs.length := by rw [pow_succ]; ring
    rw [hP]
    by_cases hc : x < y + l
    · rw [subStep_lt hx hy hl hc, if_pos hc, ← ih ys 1 ha.2 hb' hlen' (by omega)]
      simp only
      generalize val (subLoop xs ys 1) = S
      generalize base ^ xs.length = P
      constructor
      · intro h
        refine ⟨fun _ _ => hc, ?_⟩
        unfold base at *; omega
      · rintro ⟨_, h⟩
        unfold base at *; omega
    · have hge : y + l ≤ x := by omega
      rw [subStep_ge hx hge, if_neg hc]
      simp only
      by_cases hl0 : l = 0
      · subst hl0
        rw [← ih ys 0 ha.2 hb' hlen' (by omega)]
        generalize val (subLoop xs ys 0) = S
        generalize base ^ xs.length = P
        constructor
        · intro h
          refine ⟨fun _ h => by omega, ?_⟩
          unfold base at *; omega
        · rintro ⟨_, h⟩
          unfold base at *; omega
      · have hl1 : l = 1 := by omega
        subst hl1
        by_cases hn : xs = []
        · subst hn
          have hys : ys = [] := by cases ys with
            | nil => rfl
            | cons _ _ => simp at hlen'
          subst hys
          simp [subLoop, subTail, Contig]
          omega
        · have hne : xs.length ≠ 0 := by simpa using hn
          constructor
          · intro h
            exfalso
            -- the next limb is computed with a borrow that is not due
            obtain ⟨z, zs, rfl⟩ := List.exists_cons_of_ne_nil hn
            rw [subLoop_cons] at h
            have hz := (digits_cons.1 ha.2).1
            have hw := digits_headD hb'
            rw [val_head_tail ys] at h
            simp only [val_cons, List.length_cons, pow_succ] at h
            generalize ys.headD 0 = w at *
            generalize val ys.tail = W at *
            generalize base ^ zs.length = P at *
            have hstep : (subStep z w 1).1 + w + 1 = z ∨ (subStep z w 1).1 + w + 1 = z + base := by
              by_cases hc' : z < w + 1
              · rw [subStep_lt hz hw (by omega) hc']; simp only; unfold base at *; omega
              · rw [subStep_ge hz (by omega)]; simp only; omega
            generalize val (subLoop zs ys.tail (subStep z w 1).2) = S at *
            generalize (subStep z w 1).1 = v at *
            have : P * base = base * P := by ring
            rw [this] at h
            unfold base at *; omega
          · rintro ⟨h, _⟩
            exact absurd (h hne rfl) hc

theorem contig_zero (a b n : Nat) : Contig a b n 0 ↔ BorrowContiguous a b n := by
  simp [Contig, BorrowContiguous]

/-- `bi_sub_greater` is exact precisely under the borrow condition. -/
theorem subLoop_sub (a b : List Nat) (ha : Digits a) (hb : Digits b) (hb' : TopNZ b)
    (hle : val b ≤ val a) :
    val (subLoop a b 0) = val a - val b ↔ BorrowContiguous (val a) (val b) a.length := by
  have hlen : b.length ≤ a.length := length_le_of_val_le hb' ha hle
  rw [← contig_zero, ← subLoop_exact a b 0 ha hb hlen (by omega)]
  have h1 := val_lt (subLoop_digits a b 0)
  rw [subLoop_length a b 0 hlen] at h1
  omega

theorem borrow_of_short (a b n : Nat) (h : n ≤ 2) : BorrowContiguous a b n := by
  intro i j hij hj hi
  have : i = 0 := by omega
  subst this
  simp [Nat.mod_one] at hi

theorem length_le_of_val_lt {l : List Nat} (h : TopNZ l) {k : Nat} (hv : val l < base ^ k) :
    l.length ≤ k := by
  by_contra hc
  have hne : l ≠ [] := by rintro rfl; simp at hc
  have := val_ge h hne
  have h3 : base ^ k ≤ base ^ (l.length - 1) :=
    Nat.pow_le_pow_right (by unfold base; omega) (by omega)
  omega

theorem wf_subGreater (x y : BI) : (subGreater x y).WF := WF.strip (subLoop_digits _ _ _)

theorem toInt_subGreater {x y : BI} (hx : x.WF) (hy : y.WF) (hle : val y.mag ≤ val x.mag) :
    (subGreater x y).toInt = (val x.mag : Int) - val y.mag ↔
      BorrowContiguous (val x.mag) (val y.mag) x.mag.length := by
  rw [← subLoop_sub x.mag y.mag hx.digits hy.digits hy.top hle, subGreater, toInt_strip,
    toInt_ofMag]
  omega

theorem wf_addMag {x y : BI} (hx : x.WF) (hy : y.WF) : (addMag x y).WF := by
  obtain ⟨_, h2, h3, _⟩ := addLoop_spec x.mag y.mag 0 hx.digits hy.digits (by omega)
  exact WF.ofMag h2 (h3 hx.top hy.top)

theorem toInt_addMag {x y : BI} (hx : x.WF) (hy : y.WF) :
    (addMag x y).toInt = (val x.mag : Int) + val y.mag := by
  obtain ⟨h1, _⟩ := addLoop_spec x.mag y.mag 0 hx.digits hy.digits (by omega)
  rw [addMag, toInt_ofMag, h1]; push_cast; ring

theorem wf_selfAdd {x y : BI} (hx : x.WF) (hy : y.WF) : (selfAdd x y).WF := by
  obtain ⟨_, h2, h3, h4⟩ := addLoop_spec x.mag y.mag 0 hx.digits hy.digits (by omega)
  refine ⟨h2, h3 hx.top hy.top, ?_⟩
  intro h
  by_cases hx0 : x.mag = []
  · simp [selfAdd, hx0]
  · exact absurd h (h4 (.inl hx0))

theorem val_selfAdd {x y : BI} (hx : x.WF) (hy : y.WF) :
    val (selfAdd x y).mag = val x.mag + val y.mag := by
  obtain ⟨h1, _⟩ := addLoop_spec x.mag y.mag 0 hx.digits hy.digits (by omega)
  simp [selfAdd, h1]

theorem wf_subMag (x y : BI) : (subMag x y).WF := by
  unfold subMag
  split
  · exact WF.zero
  · exact WF.negate (wf_subGreater _ _)
  · exact wf_subGreater _ _

/-- Condition under which `bi_sub` of two magnitudes is exact. -/
theorem toInt_subMag {x y : BI} (hx : x.WF) (hy : y.WF) :
    (subMag x y).toInt = (val x.mag : Int) - val y.mag ↔
      BorrowContiguous (max (val x.mag) (val y.mag)) (min (val x.mag) (val y.mag))
        (max x.mag.length y.mag.length) := by
  unfold subMag
  rw [cmpAbs_spec hx.digits hx.top hy.digits hy.top]
  rcases lt_trichotomy (val x.mag) (val y.mag) with h | h | h
  · have hl := length_le_of_val_le hx.top hy.digits (le_of_lt h)
    rw [if_pos h]
    simp only
    rw [max_eq_right (le_of_lt h), min_eq_left (le_of_lt h), max_eq_right hl,
      ← toInt_subGreater hy hx (le_of_lt h), toInt_negate]
    omega
  · rw [if_neg (by omega), if_pos h]
    simp only
    rw [toInt_zero, h]
    simp
    intro i j _ _ h
    omega
  · have hl := length_le_of_val_le hy.top hx.digits (le_of_lt h)
    rw [if_neg (by omega), if_neg (by omega)]
    simp only
    rw [max_eq_left (le_of_lt h), min_eq_right (le_of_lt h), max_eq_left hl,
      ← toInt_subGreater hx hy (le_of_lt h)]

theorem wf_add {x y : BI} (hx : x.WF) (hy : y.WF) : (add x y).WF := by
  have : ∀ d : BI, d.WF → (if x.neg then d.negate else d).WF := by
    intro d hd; split
    · exact WF.negate hd
    · exact hd
  unfold add
  apply this
  split
  · exact wf_addMag hx hy
  · exact wf_subMag x y

theorem wf_subtract {x y : BI} (hx : x.WF) (hy : y.WF) : (subtract x y).WF := by
  have : ∀ d : BI, d.WF → (if x.neg then d.negate else d).WF := by
    intro d hd; split
    · exact WF.negate hd
    · exact hd
  unfold subtract
  apply this
  split
  · exact wf_subMag x y
  · exact wf_addMag hx hy

theorem toInt_of_neg {x : BI} {b : Bool} (h : x.neg = b) :
    x.toInt = if b then -(val x.mag : Int) else val x.mag := by rw [BI.toInt, h]

theorem toInt_cond_negate (b : Bool) (d : BI) :
    (if b = true then d.negate else d).toInt = if b then - d.toInt else d.toInt := by
  cases b <;> simp [toInt_negate]

theorem toInt_add {x y : BI} (hx : x.WF) (hy : y.WF) :
    (add x y).toInt = x.toInt + y.toInt ↔
      (x.neg ≠ y.neg → BorrowContiguous (max (val x.mag) (val y.mag))
        (min (val x.mag) (val y.mag)) (max x.mag.length y.mag.length)) := by
  unfold add
  rw [← toInt_subMag hx hy]
  simp only
  rw [toInt_cond_negate]
  have h1 := toInt_addMag hx hy
  cases hn : x.neg <;> cases hm : y.neg <;> rw [toInt_of_neg hn, toInt_of_neg hm] <;>
    simp <;> omega

theorem toInt_subtract {x y : BI} (hx : x.WF) (hy : y.WF) :
    (subtract x y).toInt = x.toInt - y.toInt ↔
      (x.neg = y.neg → BorrowContiguous (max (val x.mag) (val y.mag))
        (min (val x.mag) (val y.mag)) (max x.mag.length y.mag.length)) := by
  unfold subtract
  rw [← toInt_subMag hx hy]
  simp only
  rw [toInt_cond_negate]
  have h1 := toInt_addMag hx hy
  cases hn : x.neg <;> cases hm : y.neg <;> rw [toInt_of_neg hn, toInt_of_neg hm] <;>
    simp <;> omega

end Verif.BigInt
