import Verif.Spec.BigInt
import Mathlib.Tactic.Ring
import Mathlib.Tactic.Linarith
import Mathlib.Tactic.NormNum
/-
Helper lemmas about limb lists: value, canonical form, and the loops of the
model which do not involve a borrow.
-/
namespace Verif.BigInt

@[simp] theorem val_nil : val [] = 0 := rfl
@[simp] theorem val_cons (d : Nat) (ds : List Nat) : val (d :: ds) = d + base * val ds := rfl

theorem Digits.nil : Digits [] := by intro d h; simp at h

theorem digits_cons {d : Nat} {ds : List Nat} : Digits (d :: ds) ↔ d < base ∧ Digits ds := by
  simp [Digits]

theorem digits_append {a b : List Nat} : Digits (a ++ b) ↔ Digits a ∧ Digits b := by
  simp only [Digits, List.mem_append]
  constructor
  · intro h; exact ⟨fun d hd => h d (.inl hd), fun d hd => h d (.inr hd)⟩
  · rintro ⟨h1, h2⟩ d (hd | hd)
    · exact h1 d hd
    · exact h2 d hd

theorem digits_replicate (n : Nat) : Digits (List.replicate n 0) := by
  intro d hd; rw [List.mem_replicate] at hd; rw [hd.2]; decide

theorem val_append (a b : List Nat) : val (a ++ b) = val a + base ^ a.length * val b := by
  induction a with
  | nil => simp
  | cons x xs ih =>
    simp only [List.cons_append, val_cons, ih, List.length_cons, pow_succ]
    ring

theorem val_replicate (n : Nat) : val (List.replicate n 0) = 0 := by
  induction n with
  | zero => rfl
  | succ n ih => simp [List.replicate_succ, ih]

theorem val_lt {l : List Nat} (h : Digits l) : val l < base ^ l.length := by
  induction l with
  | nil => simp
  | cons d ds ih =>
    rw [digits_cons] at h
    have := ih h.2
    simp only [val_cons, List.length_cons, pow_succ]
    have := h.1
    unfold base at *
    omega

theorem topNZ_cons {d : Nat} {ds : List Nat} (h : TopNZ ds) (hne : ds ≠ []) : TopNZ (d :: ds) := by
  cases ds with
  | nil => exact absurd rfl hne
  | cons a as => exact h

theorem topNZ_cons' {d : Nat} {ds : List Nat} (h : TopNZ ds) (hd : ds = [] → d ≠ 0) :
    TopNZ (d :: ds) := by
  cases ds with
  | nil => exact hd rfl
  | cons a as => exact h

theorem topNZ_tail {d : Nat} {ds : List Nat} (h : TopNZ (d :: ds)) : TopNZ ds := by
  cases ds with
  | nil => trivial
  | cons a as => exact h

theorem topNZ_append {a b : List Nat} (h : TopNZ b) (hb : b ≠ []) : TopNZ (a ++ b) := by
  induction a with
  | nil => exact h
  | cons x xs ih => exact topNZ_cons ih (by simp [hb])

theorem val_pos {l : List Nat} (h : TopNZ l) (hne : l ≠ []) : 0 < val l := by
  induction l with
  | nil => exact absurd rfl hne
  | cons d ds ih =>
    cases ds with
    | nil => simp only [val_cons, val_nil]; have : d ≠ 0 := h; omega
    | cons a as =>
      have := ih h (by simp)
      simp only [val_cons] at *
      unfold base at *; omega

theorem val_eq_zero {l : List Nat} (h : TopNZ l) : val l = 0 ↔ l = [] := by
  constructor
  · intro h0
    by_contra hne
    have := val_pos h hne
    omega
  · rintro rfl; rfl

theorem val_ge {l : List Nat} (h : TopNZ l) (hne : l ≠ []) : base ^ (l.length - 1) ≤ val l := by
  induction l with
  | nil => exact absurd rfl hne
  | cons d ds ih =>
    cases ds with
    | nil => simp only [val_cons, val_nil]; have : d ≠ 0 := h; simp; omega
    | cons a as =>
      have := ih h (by simp)
      simp only [List.length_cons, Nat.add_sub_cancel, pow_succ, val_cons] at *
      unfold base at *; omega

/-- Lengths follow values for canonical limb lists. -/
theorem length_le_of_val_le {a b : List Nat} (ha : TopNZ a) (hb : Digits b)
    (h : val a ≤ val b) : a.length ≤ b.length := by
  by_contra hlt
  have hlt : b.length < a.length := by omega
  have hne : a ≠ [] := by rintro rfl; simp at hlt
  have h1 := val_ge ha hne
  have h2 := val_lt hb
  have h3 : base ^ b.length ≤ base ^ (a.length - 1) :=
    Nat.pow_le_pow_right (by unfold base; omega) (by omega)
  omega

theorem val_inj_len {a b : List Nat} (hl : a.length = b.length) (ha : Digits a) (hb : Digits b)
    (h : val a = val b) : a = b := by
  induction a generalizing b with
  | nil => cases b with
    | nil => rfl
    | cons _ _ => simp at hl
  | cons x xs ih =>
    cases b with
    | nil => simp at hl
    | cons y ys =>
      rw [digits_cons] at ha hb
      simp only [val_cons] at h
      have h1 := ha.1
      have h2 := hb.1
      have hxy : x = y := by unfold base at *; omega
      have hv : val xs = val ys := by unfold base at *; omega
      rw [hxy, ih (by simpa using hl) ha.2 hb.2 hv]

theorem val_inj {a b : List Nat} (ha : Digits a) (ha' : TopNZ a) (hb : Digits b) (hb' : TopNZ b)
    (h : val a = val b) : a = b := by
  apply val_inj_len _ ha hb h
  have h1 := length_le_of_val_le ha' hb (le_of_eq h)
  have h2 := length_le_of_val_le hb' ha (le_of_eq h.symm)
  omega

/-! ### `strip` -/

theorem strip_cons (d : Nat) (ds : List Nat) :
    strip (d :: ds) = if strip ds = [] then (if d = 0 then [] else [d]) else d :: strip ds := by
  rw [strip]
  split <;> rename_i h
  · simp [h]
  · rw [if_neg (fun hc => h hc)]

theorem val_strip (l : List Nat) : val (strip l) = val l := by
  induction l with
  | nil => rfl
  | cons d ds ih =>
    rw [strip_cons]
    split
    · rename_i h
      rw [h] at ih
      simp only [val_nil] at ih
      split
      · rename_i h0; simp only [val_cons, val_nil, ← ih, h0, Nat.mul_zero, Nat.add_zero]
      · simp only [val_cons, val_nil, ← ih]
    · simp [ih]

theorem strip_digits {l : List Nat} (h : Digits l) : Digits (strip l) := by
  induction l with
  | nil => exact h
  | cons d ds ih =>
    rw [digits_cons] at h
    rw [strip_cons]
    split
    · split
      · exact Digits.nil
      · rw [digits_cons]; exact ⟨h.1, Digits.nil⟩
    · rw [digits_cons]; exact ⟨h.1, ih h.2⟩

theorem strip_top (l : List Nat) : TopNZ (strip l) := by
  induction l with
  | nil => trivial
  | cons d ds ih =>
    rw [strip_cons]
    split
    · split
      · trivial
      · rename_i h; exact h
    · exact topNZ_cons ih (by assumption)

theorem strip_eq_self {l : List Nat} (h : TopNZ l) : strip l = l := by
  induction l with
  | nil => rfl
  | cons d ds ih =>
    rw [strip_cons, ih (topNZ_tail h)]
    split
    · rename_i h0; subst h0
      have : d ≠ 0 := h
      simp [this]
    · rfl

theorem strip_eq_nil (l : List Nat) : strip l = [] ↔ val l = 0 := by
  rw [← val_eq_zero (strip_top l), val_strip]

/-! ### well-formed results -/

theorem WF.zero : BI.zero.WF := ⟨Digits.nil, trivial, fun _ => rfl⟩

theorem WF.ofMag {l : List Nat} (h : Digits l) (h' : TopNZ l) : (BI.ofMag l).WF :=
  ⟨h, h', fun _ => rfl⟩

theorem toInt_ofMag (l : List Nat) : (BI.ofMag l).toInt = val l := by simp [BI.ofMag, BI.toInt]

theorem toInt_zero : BI.zero.toInt = 0 := by simp [BI.zero, BI.toInt]

theorem WF.negate {x : BI} (h : x.WF) : x.negate.WF := by
  unfold BI.negate
  split
  · exact WF.zero
  · exact ⟨h.digits, h.top, fun h' => absurd h' (by assumption)⟩

theorem toInt_negate (x : BI) : x.negate.toInt = - x.toInt := by
  unfold BI.negate BI.toInt
  split
  · rename_i h; simp [h]
  · cases x.neg <;> simp

theorem WF.abs {x : BI} (h : x.WF) : x.abs.WF := ⟨h.digits, h.top, fun _ => rfl⟩

theorem WF.strip {x : BI} (h : Digits x.mag) : x.strip.WF := by
  unfold BI.strip
  split
  · exact WF.zero
  · rename_i l hl
    exact ⟨strip_digits h, strip_top _, fun h' => absurd h' hl⟩

theorem mag_bistrip (x : BI) : x.strip.mag = BigInt.strip x.mag := by
  unfold BI.strip; split <;> simp_all

theorem toInt_strip (x : BI) : x.strip.toInt = x.toInt := by
  unfold BI.strip
  split
  · rename_i h
    rw [strip_eq_nil] at h
    simp [BI.toInt, h]
  · simp [BI.toInt, val_strip]

theorem isZero_iff {x : BI} (h : x.WF) : x.isZero = true ↔ x.toInt = 0 := by
  unfold BI.isZero
  rw [decide_eq_true_iff, ← val_eq_zero h.top]
  unfold BI.toInt
  split <;> omega

theorem toInt_of_isZero {x : BI} (h : x.isZero = true) : x.toInt = 0 := by
  unfold BI.isZero at h
  rw [decide_eq_true_iff] at h
  simp [BI.toInt, h]

theorem toInt_inj {x y : BI} (hx : x.WF) (hy : y.WF) (h : x.toInt = y.toInt) : x = y := by
  have key : x.neg = y.neg ∧ val x.mag = val y.mag := by
    have px : x.neg = true → 0 < val x.mag := fun hn =>
      val_pos hx.top (fun h0 => by rw [hx.sign h0] at hn; cases hn)
    have py : y.neg = true → 0 < val y.mag := fun hn =>
      val_pos hy.top (fun h0 => by rw [hy.sign h0] at hn; cases hn)
    unfold BI.toInt at h
    cases hxn : x.neg <;> cases hyn : y.neg <;> simp only [hxn, hyn, if_true] at h px py <;>
      simp at h px py <;> first | (constructor; rfl; omega) | omega
  have := val_inj hx.digits hx.top hy.digits hy.top key.2
  cases x; cases y; simp_all

/-! ### comparison -/

theorem val_reverse_cons (a : Nat) (as : List Nat) :
    val (a :: as).reverse = val as.reverse + base ^ as.length * a := by
  simp [val_append]

theorem cmpTop_spec (a b : List Nat) (hl : a.length = b.length) (ha : Digits a) (hb : Digits b) :
    cmpTop a b = (if val a.reverse < val b.reverse then .less
      else if val a.reverse = val b.reverse then .equal else .greater) := by
  induction a generalizing b with
  | nil => cases b with
    | nil => simp [cmpTop]
    | cons _ _ => simp at hl
  | cons x xs ih =>
    cases b with
    | nil => simp at hl
    | cons y ys =>
      rw [digits_cons] at ha hb
      have hl' : xs.length = ys.length := by simpa using hl
      rw [val_reverse_cons, val_reverse_cons, cmpTop, ih ys hl' ha.2 hb.2, hl']
      have h1 : val xs.reverse < base ^ ys.length := by
        have := val_lt (l := xs.reverse) (by intro d hd; exact ha.2 d (by simpa using hd))
        simpa [hl'] using this
      have h2 : val ys.reverse < base ^ ys.length := by
        have := val_lt (l := ys.reverse) (by intro d hd; exact hb.2 d (by simpa using hd))
        simpa using this
      generalize base ^ ys.length = p at *
      rcases lt_trichotomy x y with h | h | h
      · have : p * x + p ≤ p * y := by rw [← Nat.mul_succ]; exact Nat.mul_le_mul_left _ h
        rw [if_neg (by omega), if_pos h, if_pos (by omega)]
      · subst h; simp
      · have : p * y + p ≤ p * x := by rw [← Nat.mul_succ]; exact Nat.mul_le_mul_left _ h
        rw [if_pos h, if_neg (by omega), if_neg (by omega)]

theorem cmpAbs_spec {a b : List Nat} (ha : Digits a) (ha' : TopNZ a) (hb : Digits b)
    (hb' : TopNZ b) :
    cmpAbs a b = (if val a < val b then .less else if val a = val b then .equal else .greater) := by
  unfold cmpAbs
  split
  · rename_i h
    have : val a < val b := by
      by_contra hc
      have := length_le_of_val_le hb' ha (by omega); omega
    rw [if_pos this]
  · split
    · rename_i h
      have : val b < val a := by
        by_contra hc
        have := length_le_of_val_le ha' hb (by omega); omega
      rw [if_neg (by omega), if_neg (by omega)]
    · rw [cmpTop_spec _ _ (by simp; omega) (by intro d hd; exact ha d (by simpa using hd))
        (by intro d hd; exact hb d (by simpa using hd))]
      simp

/-! ### loops without borrow -/

theorem mulLoop_spec {n : Nat} (hn : n < base) (ds : List Nat) (left : Nat) (hds : Digits ds)
    (hl : left < base) :
    val (mulLoop n ds left) = n * val ds + left ∧ Digits (mulLoop n ds left) ∧
      (n ≠ 0 → TopNZ ds → TopNZ (mulLoop n ds left)) ∧
      (ds ≠ [] → mulLoop n ds left ≠ []) := by
  induction ds generalizing left with
  | nil =>
    unfold mulLoop
    split
    · have : left % base = left := Nat.mod_eq_of_lt hl
      rw [this]
      refine ⟨by simp, ?_, fun _ _ => by assumption, by simp⟩
      rw [digits_cons]; exact ⟨hl, Digits.nil⟩
    · refine ⟨?_, Digits.nil, fun _ _ => trivial, fun h => absurd rfl h⟩
      simp; omega
  | cons d ds ih =>
    rw [digits_cons] at hds
    have hd := hds.1
    have hnd : n * d ≤ 4294967295 * 4294967295 :=
      Nat.mul_le_mul (by unfold base at hn; omega) (by unfold base at hd; omega)
    have hmod : (n * d + left) % word = n * d + left :=
      Nat.mod_eq_of_lt (by unfold word; unfold base at hl; omega)
    rw [mulLoop]
    simp only [hmod]
    have hq : (n * d + left) / base < base := by
      unfold base at *; omega
    obtain ⟨h1, h2, h3, h4⟩ := ih ((n * d + left) / base) hds.2 hq
    refine ⟨?_, ?_, ?_, by simp⟩
    · rw [val_cons, h1, val_cons]
      have : n * (d + base * val ds) = n * d + base * (n * val ds) := by ring
      rw [this]
      generalize n * d = q at *
      generalize n * val ds = r at *
      unfold base at *; omega
    · rw [digits_cons]; exact ⟨Nat.mod_lt _ (by decide), h2⟩
    · intro hn0 htop
      apply topNZ_cons' (h3 hn0 (topNZ_tail htop))
      intro hnil
      by_cases hds' : ds = []
      · subst hds'
        have hd0 : d ≠ 0 := htop
        have : 0 < n * d := Nat.mul_pos (by omega) (by omega)
        rw [hnil] at h1
        simp at h1
        generalize n * d = q at *
        unfold base at *; omega
      · exact absurd hnil (h4 hds')

theorem selfAddLoop_spec (ds : List Nat) (left : Nat) (hds : Digits ds) (hl : left < base) :
    val (selfAddLoop ds left) = val ds + left ∧ Digits (selfAddLoop ds left) ∧
      (TopNZ ds → TopNZ (selfAddLoop ds left)) := by
  induction ds generalizing left with
  | nil =>
    unfold selfAddLoop
    split
    · have : left % base = left := Nat.mod_eq_of_lt hl
      rw [this]
      refine ⟨by simp, ?_, fun _ => by assumption⟩
      rw [digits_cons]; exact ⟨hl, Digits.nil⟩
    · exact ⟨by simp; omega, Digits.nil, fun _ => trivial⟩
  | cons d ds ih =>
    rw [digits_cons] at hds
    have hd := hds.1
    have hmod : (d + left) % word = d + left :=
      Nat.mod_eq_of_lt (by unfold word; unfold base at *; omega)
    rw [selfAddLoop]
    simp only [hmod]
    have hq : (d + left) / base < base := by unfold base at *; omega
    split
    · rename_i h0
      have hlt : d + left < base := by unfold base at *; omega
      rw [Nat.mod_eq_of_lt hlt]
      refine ⟨by simp; omega, by rw [digits_cons]; exact ⟨hlt, hds.2⟩, fun ht => ?_⟩
      apply topNZ_cons' (topNZ_tail ht)
      rintro rfl
      have : d ≠ 0 := ht
      omega
    · rename_i h0
      obtain ⟨h1, h2, h3⟩ := ih _ hds.2 hq
      refine ⟨?_, ?_, ?_⟩
      · rw [val_cons, h1, val_cons]; unfold base at *; omega
      · rw [digits_cons]; exact ⟨Nat.mod_lt _ (by decide), h2⟩
      · intro ht
        apply topNZ_cons' (h3 (topNZ_tail ht))
        intro hnil
        rw [hnil] at h1
        simp at h1
        unfold base at *; omega

theorem addIntLoop_spec (ds : List Nat) (left : Nat) (hds : Digits ds) (hl : left < base) :
    val (addIntLoop ds left) = val ds + left ∧ Digits (addIntLoop ds left) ∧
      (TopNZ ds → TopNZ (addIntLoop ds left)) ∧ (ds ≠ [] → addIntLoop ds left ≠ []) := by
  induction ds generalizing left with
  | nil =>
    unfold addIntLoop
    split
    · have : left % base = left := Nat.mod_eq_of_lt hl
      rw [this]
      refine ⟨by simp, ?_, fun _ => by assumption, by simp⟩
      rw [digits_cons]; exact ⟨hl, Digits.nil⟩
    · exact ⟨by simp; omega, Digits.nil, fun _ => trivial, fun h => absurd rfl h⟩
  | cons d ds ih =>
    rw [digits_cons] at hds
    have hd := hds.1
    have hmod : (d + left) % word = d + left :=
      Nat.mod_eq_of_lt (by unfold word; unfold base at *; omega)
    rw [addIntLoop]
    simp only [hmod]
    have hq : (d + left) / base < base := by unfold base at *; omega
    obtain ⟨h1, h2, h3, h4⟩ := ih _ hds.2 hq
    refine ⟨?_, ?_, ?_, by simp⟩
    · rw [val_cons, h1, val_cons]; unfold base at *; omega
    · rw [digits_cons]; exact ⟨Nat.mod_lt _ (by decide), h2⟩
    · intro ht
      apply topNZ_cons' (h3 (topNZ_tail ht))
      intro hnil
      by_cases hds' : ds = []
      · subst hds'
        have : d ≠ 0 := ht
        rw [hnil] at h1
        simp at h1
        unfold base at *; omega
      · exact absurd hnil (h4 hds')

theorem addLoop_spec (a b : List Nat) (left : Nat) (ha : Digits a) (hb : Digits b)
    (hl : left ≤ 1) :
    val (addLoop a b left) = val a + val b + left ∧ Digits (addLoop a b left) ∧
      (TopNZ a → TopNZ b → TopNZ (addLoop a b left)) ∧
      (a ≠ [] ∨ b ≠ [] → addLoop a b left ≠ []) := by
  induction a generalizing b left with
  | nil =>
    obtain ⟨h1, h2, h3, h4⟩ := addIntLoop_spec b left hb (by unfold base; omega)
    rw [addLoop]
    exact ⟨by simp [h1], h2, fun _ => h3, by simpa using h4⟩
  | cons x xs ih =>
    rw [digits_cons] at ha
    have hx := ha.1
    cases b with
    | nil =>
      have hmod : (x + 0 + left) % word = x + left := by
        rw [Nat.mod_eq_of_lt (by unfold word; unfold base at *; omega)]; omega
      rw [addLoop]
      simp only [hmod]
      have hq : (x + left) / base ≤ 1 := by unfold base at *; omega
      obtain ⟨h1, h2, h3, h4⟩ := ih [] _ ha.2 Digits.nil hq
      refine ⟨?_, ?_, ?_, by simp⟩
      · rw [val_cons, h1, val_cons, val_nil]; unfold base at *; omega
      · rw [digits_cons]; exact ⟨Nat.mod_lt _ (by decide), h2⟩
      · intro ht _
        apply topNZ_cons' (h3 (topNZ_tail ht) trivial)
        intro hnil
        by_cases hds' : xs = []
        · subst hds'
          have : x ≠ 0 := ht
          rw [hnil] at h1
          simp at h1
          unfold base at *; omega
        · exact absurd hnil (h4 (.inl hds'))
    | cons y ys =>
      rw [digits_cons] at hb
      have hy := hb.1
      have hmod : (x + y + left) % word = x + y + left := by
        rw [Nat.mod_eq_of_lt]; unfold word; unfold base at *; omega
      rw [addLoop]
      simp only [hmod]
      have hq : (x + y + left) / base ≤ 1 := by unfold base at *; omega
      obtain ⟨h1, h2, h3, h4⟩ := ih ys _ ha.2 hb.2 hq
      refine ⟨?_, ?_, ?_, by simp⟩
      · rw [val_cons, h1, val_cons, val_cons]; unfold base at *; omega
      · rw [digits_cons]; exact ⟨Nat.mod_lt _ (by decide), h2⟩
      · intro ht ht'
        apply topNZ_cons' (h3 (topNZ_tail ht) (topNZ_tail ht'))
        intro hnil
        by_cases hds' : xs = []
        · by_cases hys : ys = []
          · subst hds'; subst hys
            have : x ≠ 0 := ht
            rw [hnil] at h1
            simp at h1
            unfold base at *; omega
          · exact absurd hnil (h4 (.inr hys))
        · exact absurd hnil (h4 (.inl hds'))

theorem subIntLoop_spec (ds : List Nat) (left : Int) (hds : Digits ds) (hl : 0 ≤ left)
    (hlb : left < base) (hle : left ≤ val ds) :
    (val (subIntLoop ds left) : Int) = val ds - left ∧ Digits (subIntLoop ds left) := by
  induction ds generalizing left with
  | nil => simp [subIntLoop] at *; exact ⟨by omega, Digits.nil⟩
  | cons d ds ih =>
    rw [digits_cons] at hds
    have hd := hds.1
    rw [subIntLoop]
    simp only [val_cons] at hle
    split
    · rename_i h0
      obtain ⟨h1, h2⟩ := ih 1 hds.2 (by omega) (by decide) (by unfold base at *; push_cast at hle; omega)
      refine ⟨?_, ?_⟩
      · rw [val_cons, val_cons]; push_cast; rw [h1]
        unfold base at *
        push_cast at *
        omega
      · rw [digits_cons]; exact ⟨Nat.mod_lt _ (by decide), h2⟩
    · rename_i h0
      obtain ⟨h1, h2⟩ := ih 0 hds.2 (by omega) (by decide) (by omega)
      refine ⟨?_, ?_⟩
      · rw [val_cons, val_cons]; push_cast; rw [h1]
        unfold base at *
        push_cast at *
        omega
      · rw [digits_cons]; exact ⟨Nat.mod_lt _ (by decide), h2⟩

theorem divIntLoop_spec {n : Nat} (hn : 0 < n) (hnb : n ≤ base) (ds : List Nat) (left : Nat)
    (hds : Digits ds) (hl : left < n) :
    val (divIntLoop n ds left).1.reverse = (left * base ^ ds.length + val ds.reverse) / n ∧
    (divIntLoop n ds left).2 = (left * base ^ ds.length + val ds.reverse) % n ∧
    Digits (divIntLoop n ds left).1 ∧ (divIntLoop n ds left).1.length = ds.length := by
  induction ds generalizing left with
  | nil =>
    simp [divIntLoop, Digits.nil, Nat.div_eq_of_lt hl, Nat.mod_eq_of_lt hl]
  | cons d ds ih =>
    rw [digits_cons] at hds
    have hd := hds.1
    have hmod : (d + left * base) % word = d + left * base := by
      rw [Nat.mod_eq_of_lt]; unfold word; unfold base at *; omega
    obtain ⟨h1, h2, h3, h4⟩ := ih ((d + left * base) % n) hds.2 (Nat.mod_lt _ hn)
    rw [divIntLoop]
    simp only [hmod]
    have hqlt : (d + left * base) / n < base := by
      rw [Nat.div_lt_iff_lt_mul hn]
      have : (left + 1) * base ≤ n * base := Nat.mul_le_mul_right _ hl
      rw [Nat.mul_comm base n]
      unfold base at *; omega
    rw [Nat.mod_eq_of_lt hqlt]
    rw [val_reverse_cons, val_reverse_cons, List.length_cons, h1, h2, h4]
    have hdm := Nat.div_add_mod (d + left * base) n
    have key : left * base ^ (ds.length + 1) + (val ds.reverse + base ^ ds.length * d) =
        ((d + left * base) % n * base ^ ds.length + val ds.reverse) +
          n * (base ^ ds.length * ((d + left * base) / n)) := by
      have : left * base ^ (ds.length + 1) + (val ds.reverse + base ^ ds.length * d) =
        base ^ ds.length * (d + left * base) + val ds.reverse := by ring
      rw [this]
      conv_lhs => rw [← hdm]
      ring
    rw [key]
    refine ⟨?_, ?_, ?_, by simp [h4]⟩
    · rw [Nat.add_mul_div_left _ _ hn]
    · rw [Nat.add_mul_mod_self_left]
    · rw [digits_cons]; exact ⟨hqlt, h3⟩

end Verif.BigInt
