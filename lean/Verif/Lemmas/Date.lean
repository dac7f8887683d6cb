import Verif.Lemmas.DateFloat
import Verif.Spec.Date

/-!
# Years, months and days
-/

namespace Verif.Date

open Spec

/-- The number of the first day of a year. -/
def dfy (y : Int) : Int :=
  365 * (y - 1970) + (y - 1969) / 4 - (y - 1901) / 100 + (y - 1601) / 400

/-- The number of days of a year. -/
def yearLen (y : Int) : Int := if Leap y then 366 else 365

theorem leap_iff (y : Int) : Leap y ↔ (y % 4 = 0 ∧ y % 100 ≠ 0) ∨ y % 400 = 0 := Iff.rfl

theorem dfy_succ (y : Int) : dfy (y + 1) = dfy y + yearLen y := by
  unfold dfy yearLen
  split <;> rename_i h <;> rw [leap_iff] at h <;> omega

theorem yearLen_bounds (y : Int) : 365 ≤ yearLen y ∧ yearLen y ≤ 366 := by
  unfold yearLen; split <;> omega

theorem dfy_after {y : Int} (h : 1970 ≤ y) : 365 * (y - 1970) ≤ dfy y := by
  unfold dfy; omega

theorem dfy_before {y : Int} (h : y ≤ 1970) : dfy y ≤ 365 * (y - 1970) := by
  unfold dfy; omega

theorem dfy_mono {y y' : Int} (h : y ≤ y') : dfy y ≤ dfy y' := by
  obtain ⟨k, rfl⟩ := Int.le.dest h
  clear h
  induction k with
  | zero => simp
  | succ k ih =>
    have h1 := dfy_succ (y + k)
    have h2 := yearLen_bounds (y + k)
    have e : y + ((k + 1 : Nat) : Int) = y + k + 1 := by omega
    rw [e]
    omega

theorem dfy_lt {y y' : Int} (h : y < y') : dfy y < dfy y' := by
  have h1 := dfy_succ y
  have h2 := yearLen_bounds y
  have h3 := dfy_mono (show y + 1 ≤ y' by omega)
  omega

/-! ## The code -/

theorem daysInYear_eq (y : Int) : daysInYear y = yearLen y := by
  have h4 : y.tmod 4 ≠ 0 ↔ y % 4 ≠ 0 := by
    rw [Ne, Ne, ← Int.dvd_iff_tmod_eq_zero, Int.dvd_iff_emod_eq_zero]
  have h100 : y.tmod 100 ≠ 0 ↔ y % 100 ≠ 0 := by
    rw [Ne, Ne, ← Int.dvd_iff_tmod_eq_zero, Int.dvd_iff_emod_eq_zero]
  have h400 : y.tmod 400 ≠ 0 ↔ y % 400 ≠ 0 := by
    rw [Ne, Ne, ← Int.dvd_iff_tmod_eq_zero, Int.dvd_iff_emod_eq_zero]
  unfold daysInYear yearLen
  simp only [h4, h100, h400]
  split
  · rw [if_neg (by rw [leap_iff]; omega)]
  split
  · rw [if_pos (by rw [leap_iff]; omega)]
  split
  · rw [if_neg (by rw [leap_iff]; omega)]
  · rw [if_pos (by rw [leap_iff]; omega)]

theorem isLeapYear_eq (y : Int) : isLeapYear y = if Leap y then 1 else 0 := by
  unfold isLeapYear
  rw [daysInYear_eq]
  unfold yearLen
  by_cases h : Leap y
  · simp [h]
  · simp [h]

theorem dayFromYearD_eq {y : Int} (h : y.natAbs ≤ 2 ^ 40) : dayFromYearD y = dfy y := by
  unfold dayFromYearD dfy
  have f : ∀ (a : Int) (d : Nat), 0 < d → d ≤ 400 → a.natAbs < 2 ^ 50 →
      floorDiv (rnd a) d = a / (d : Int) := by
    intro a d h1 h2 h3
    rw [rnd_small (by omega), floorDiv_small h1 (by omega) (by omega)]
  have f4 := f (y - 1969) 4 (by omega) (by omega) (by omega)
  have f100 := f (y - 1901) 100 (by omega) (by omega) (by omega)
  have f400 := f (y - 1601) 400 (by omega) (by omega) (by omega)
  rw [f4, f100, f400, rnd_small (a := y - 1970) (by omega)]
  simp only [Nat.cast_ofNat]
  rw [rnd_small (a := 365 * (y - 1970)) (by omega),
    rnd_small (a := 365 * (y - 1970) + (y - 1969) / 4) (by omega),
    rnd_small (a := 365 * (y - 1970) + (y - 1969) / 4 - (y - 1901) / 100) (by omega),
    rnd_small (by omega)]

theorem dayFromYear_eq {y : Int} (h : y.natAbs ≤ 2 ^ 40) : dayFromYear y = .ok (dfy y) := by
  unfold dayFromYear
  rw [rnd_small (by omega), dayFromYearD_eq h]
  simp only [toI64]
  have : -(2 ^ 63) ≤ dfy y ∧ dfy y < 2 ^ 63 := by unfold dfy; omega
  rw [if_pos this]

theorem timeFromYear_eq {y : Int} (h : y.natAbs ≤ 291000000) :
    timeFromYear y = .ok (86400000 * dfy y) := by
  unfold timeFromYear
  rw [dayFromYear_eq (by omega)]
  simp only [bind, Except.bind, i64]
  rw [if_pos (by unfold dfy msPerDay; omega)]
  rfl

/-- Where the product overflows. -/
theorem timeFromYear_overflow {y : Int} (h : y.natAbs ≤ 2 ^ 40)
    (h2 : ¬(-(2 ^ 63) ≤ 86400000 * dfy y ∧ 86400000 * dfy y < 2 ^ 63)) :
    timeFromYear y = .error .overflow := by
  unfold timeFromYear
  rw [dayFromYear_eq (by omega)]
  simp only [bind, Except.bind, i64]
  rw [if_neg (by unfold msPerDay; exact h2)]

/-- The millisecond `t` lies in day `n`. -/
structure Within (t n : Int) : Prop where
  lo : n * 86400000 ≤ t
  hi : t < (n + 1) * 86400000
  day : day t = n

theorem Within.le {t n : Int} (h : Within t n) (y : Int) :
    86400000 * dfy y ≤ t ↔ dfy y ≤ n := by
  have h1 := h.lo
  have h2 := h.hi
  constructor <;> intro <;> omega

theorem yearDown_spec {t n : Int} (hw : Within t n) (hn : 0 ≤ n) :
    ∀ (f : Nat) (y : Int), n < dfy (y + 1) → y - 1970 < f → 1970 ≤ y → y ≤ 291000000 →
      ∃ Y, yearDown t f y = .ok Y ∧ dfy Y ≤ n ∧ n < dfy (Y + 1) ∧ 1970 ≤ Y ∧ Y ≤ y
  | 0, y, _, hf, hy, _ => by omega
  | f + 1, y, h, hf, hy, hr => by
    unfold yearDown
    rw [timeFromYear_eq (by omega)]
    simp only [bind, Except.bind]
    by_cases hc : 86400000 * dfy y ≤ t
    · rw [if_pos hc]
      exact ⟨y, rfl, (hw.le y).1 hc, h, hy, Int.le_refl y⟩
    · rw [if_neg hc]
      have hlt : n < dfy y := by have := (hw.le y).not.1 hc; omega
      have hy1 : y ≠ 1970 := by
        intro e
        have : dfy 1970 = 0 := by decide
        rw [e] at hlt
        omega
      obtain ⟨Y, h1, h2, h3, h4, h5⟩ := yearDown_spec hw hn f (y - 1)
        (by rw [show y - 1 + 1 = y by omega]; exact hlt) (by omega) (by omega) (by omega)
      exact ⟨Y, h1, h2, h3, h4, by omega⟩

theorem yearUp_spec {t n : Int} (hw : Within t n) (hn : n < 0) :
    ∀ (f : Nat) (y : Int), dfy y ≤ n → 1969 - y < f → y ≤ 1969 → -290999999 ≤ y →
      ∃ Y, yearUp t f y = .ok Y ∧ dfy Y ≤ n ∧ n < dfy (Y + 1) ∧ y ≤ Y ∧ Y ≤ 1969
  | 0, y, _, hf, hy, _ => by omega
  | f + 1, y, h, hf, hy, hr => by
    unfold yearUp
    rw [timeFromYear_eq (by omega)]
    simp only [bind, Except.bind]
    by_cases hc : t < 86400000 * dfy (y + 1)
    · rw [if_pos hc]
      refine ⟨y, rfl, h, ?_, Int.le_refl y, hy⟩
      have := hw.le (y + 1)
      omega
    · rw [if_neg hc]
      have hle : dfy (y + 1) ≤ n := (hw.le (y + 1)).1 (by omega)
      have hy1 : y ≠ 1969 := by
        intro e
        have : dfy 1970 = 0 := by decide
        rw [e] at hle
        have e2 : (1969 : Int) + 1 = 1970 := rfl
        rw [e2] at hle
        omega
      obtain ⟨Y, h1, h2, h3, h4, h5⟩ := yearUp_spec hw hn f (y + 1) hle (by omega) (by omega)
        (by omega)
      exact ⟨Y, h1, h2, h3, by omega, h5⟩

/-- `year_from_time` finds the year that contains the day. -/
theorem yearFromTime_spec {t n : Int} (hw : Within t n) (hn : n.natAbs ≤ 106000000000) :
    ∃ Y, yearFromTime t = .ok Y ∧ dfy Y ≤ n ∧ n < dfy (Y + 1) ∧ Y.natAbs ≤ 291000000 := by
  unfold yearFromTime
  rw [hw.day]
  simp only
  by_cases h0 : 0 ≤ n
  · rw [if_pos h0, Int.tdiv_eq_ediv_of_nonneg h0]
    obtain ⟨Y, h1, h2, h3, h4, h5⟩ := yearDown_spec hw h0 (n.natAbs + 2) (n / 365 + 1970)
      (by have := dfy_after (show 1970 ≤ n / 365 + 1970 + 1 by omega); omega)
      (by omega) (by omega) (by omega)
    exact ⟨Y, h1, h2, h3, by omega⟩
  · rw [if_neg h0]
    have e : n.tdiv 365 = -((-n) / 365) := by
      have h1 : n = -(-n) := by omega
      rw [h1, Int.neg_tdiv, Int.tdiv_eq_ediv_of_nonneg (by omega), Int.neg_neg]
    rw [e]
    obtain ⟨Y, h1, h2, h3, h4, h5⟩ := yearUp_spec hw (by omega) (n.natAbs + 2)
      (-((-n) / 365) + 1970 - 1)
      (by have := dfy_before (show -((-n) / 365) + 1970 - 1 ≤ 1970 by omega); omega)
      (by omega) (by omega) (by omega)
    exact ⟨Y, h1, h2, h3, by omega⟩

/-- Days before a month in its year. -/
def cum (y m : Int) : Int :=
  monthYearDays.getD m.toNat 0 + (if 1 < m then (if Leap y then 1 else 0) else 0)

/-- The number of the day of a date. -/
def num (c : Civil) : Int := dfy c.year + cum c.year c.month + c.date - 1

theorem months {P : Int → Prop} {m : Int} (h0 : 0 ≤ m) (h1 : m ≤ 11)
    (h : P 0 ∧ P 1 ∧ P 2 ∧ P 3 ∧ P 4 ∧ P 5 ∧ P 6 ∧ P 7 ∧ P 8 ∧ P 9 ∧ P 10 ∧ P 11) : P m := by
  have : m = 0 ∨ m = 1 ∨ m = 2 ∨ m = 3 ∨ m = 4 ∨ m = 5 ∨ m = 6 ∨ m = 7 ∨ m = 8 ∨ m = 9 ∨ m = 10 ∨
    m = 11 := by omega
  rcases this with e | e | e | e | e | e | e | e | e | e | e | e <;> (rw [e]; simp_all)

theorem cum_succ {y m : Int} (h0 : 0 ≤ m) (h1 : m ≤ 10) :
    cum y (m + 1) = cum y m + monthLen y m := by
  have h2 : m ≤ 11 := by omega
  revert h1
  refine months (P := fun m => m ≤ 10 → cum y (m + 1) = cum y m + monthLen y m) h0 h2 ?_
  by_cases hl : Leap y <;> simp [cum, monthLen, monthYearDays, hl]

theorem cum_last (y : Int) : cum y 11 + monthLen y 11 = yearLen y := by
  by_cases hl : Leap y <;> simp [cum, monthLen, monthYearDays, yearLen, hl]

theorem cum_zero (y : Int) : cum y 0 = 0 := by simp [cum, monthYearDays]

theorem monthLen_bounds (y m : Int) : 28 ≤ monthLen y m ∧ monthLen y m ≤ 31 := by
  unfold monthLen
  split
  · split <;> omega
  · split <;> omega

theorem num_next {c : Civil} (h : c.Exists) : num c.next = num c + 1 := by
  obtain ⟨h0, h1, h2, h3⟩ := h
  unfold Civil.next num
  split
  · simp only; omega
  · split
    · simp only
      rw [cum_succ h0 (by omega)]
      omega
    · have e : c.month = 11 := by omega
      have := cum_last c.year
      simp only
      rw [dfy_succ, cum_zero, e]
      rw [e] at h3
      rename_i hn _
      rw [e] at hn
      omega

theorem next_exists {c : Civil} (h : c.Exists) : c.next.Exists := by
  obtain ⟨h0, h1, h2, h3⟩ := h
  unfold Civil.next Civil.Exists
  split
  · simp only; omega
  · split
    · simp only
      have := monthLen_bounds c.year (c.month + 1)
      omega
    · simp only
      have := monthLen_bounds (c.year + 1) 0
      omega

theorem onDay_num {n : Int} {c : Civil} (h : OnDay n c) : c.Exists ∧ num c = n := by
  induction h with
  | epoch => exact ⟨by unfold Civil.Exists; decide, by decide⟩
  | next _ ih => exact ⟨next_exists ih.1, by rw [num_next ih.1, ih.2]⟩
  | prev hc _ ih =>
    refine ⟨hc, ?_⟩
    have := num_next hc
    omega

/-- Dates that exist are determined by their number. -/
theorem cum_mono {y m m' : Int} (h0 : 0 ≤ m) (h : m < m') (h1 : m' ≤ 11) :
    cum y m + monthLen y m ≤ cum y m' := by
  obtain ⟨k, rfl⟩ : ∃ k : Nat, m' = m + 1 + k := ⟨(m' - m - 1).toNat, by omega⟩
  clear h
  induction k with
  | zero => rw [show m + 1 + ((0 : Nat) : Int) = m + 1 by omega, cum_succ h0 (by omega)]
  | succ k ih =>
    have e : m + 1 + ((k + 1 : Nat) : Int) = m + 1 + k + 1 := by omega
    rw [e, cum_succ (by omega) (by omega)]
    have := ih (by omega)
    have := monthLen_bounds y (m + 1 + k)
    omega

theorem cum_in_year {y m : Int} (h0 : 0 ≤ m) (h1 : m ≤ 11) :
    0 ≤ cum y m ∧ cum y m + monthLen y m ≤ yearLen y := by
  have hl := cum_last y
  constructor
  · rcases Int.lt_or_eq_of_le h0 with h | h
    · have := cum_mono (y := y) (Int.le_refl 0) h h1
      have := monthLen_bounds y 0
      rw [cum_zero] at *
      omega
    · rw [← h, cum_zero]
  · rcases Int.lt_or_eq_of_le h1 with h | h
    · have := cum_mono (y := y) h0 h (Int.le_refl 11)
      have := monthLen_bounds y 11
      omega
    · rw [h]; omega

theorem num_inj {c c' : Civil} (h : c.Exists) (h' : c'.Exists) (e : num c = num c') : c = c' := by
  obtain ⟨y, m, d⟩ := c
  obtain ⟨y', m', d'⟩ := c'
  obtain ⟨h0, h1, h2, h3⟩ := h
  obtain ⟨h0', h1', h2', h3'⟩ := h'
  simp only [num] at *
  have hi := cum_in_year (y := y) h0 h1
  have hi' := cum_in_year (y := y') h0' h1'
  have hs := dfy_succ y
  have hs' := dfy_succ y'
  have hy : y = y' := by
    rcases Int.lt_trichotomy y y' with hlt | heq | hgt
    · have := dfy_mono (show y + 1 ≤ y' by omega); omega
    · exact heq
    · have := dfy_mono (show y' + 1 ≤ y by omega); omega
  subst hy
  have hm : m = m' := by
    rcases Int.lt_trichotomy m m' with hlt | heq | hgt
    · have := cum_mono (y := y) h0 hlt h1'; omega
    · exact heq
    · have := cum_mono (y := y) h0' hgt h1; omega
  subst hm
  have : d = d' := by omega
  subst this
  rfl

/-- Every date that exists has a day before. -/
theorem exists_prev {c : Civil} (h : c.Exists) : ∃ p : Civil, p.Exists ∧ p.next = c := by
  obtain ⟨y, m, d⟩ := c
  obtain ⟨h0, h1, h2, h3⟩ := h
  simp only at *
  by_cases hd : d = 1
  · by_cases hm : m = 0
    · refine ⟨⟨y - 1, 11, 31⟩, ?_, ?_⟩
      · simp [Civil.Exists, monthLen]
      · simp [Civil.next, monthLen, hd, hm]
    · refine ⟨⟨y, m - 1, monthLen y (m - 1)⟩, ?_, ?_⟩
      · have := monthLen_bounds y (m - 1)
        simp only [Civil.Exists]; omega
      · simp only [Civil.next]
        rw [if_neg (by omega), if_pos (by omega)]
        simp [hd]
  · refine ⟨⟨y, m, d - 1⟩, ?_, ?_⟩
    · simp only [Civil.Exists]; omega
    · simp only [Civil.next]
      rw [if_pos (by omega)]
      simp

theorem onDay_exists (n : Int) : ∃ c, OnDay n c := by
  rcases Int.le_total 0 n with h | h
  · obtain ⟨k, rfl⟩ : ∃ k : Nat, n = k := ⟨n.toNat, by omega⟩
    clear h
    induction k with
    | zero => exact ⟨_, .epoch⟩
    | succ k ih =>
      obtain ⟨c, hc⟩ := ih
      exact ⟨c.next, by have := OnDay.next hc; simpa using this⟩
  · obtain ⟨k, rfl⟩ : ∃ k : Nat, n = -(k : Int) := ⟨(-n).toNat, by omega⟩
    clear h
    induction k with
    | zero => exact ⟨_, .epoch⟩
    | succ k ih =>
      obtain ⟨c, hc⟩ := ih
      obtain ⟨p, hp, hn⟩ := exists_prev (onDay_num hc).1
      refine ⟨p, .prev hp ?_⟩
      rw [hn]
      have e : -(((k + 1 : Nat)) : Int) + 1 = -(k : Int) := by omega
      rw [e]
      exact hc

theorem onDay_iff {n : Int} {c : Civil} : OnDay n c ↔ c.Exists ∧ num c = n := by
  constructor
  · exact onDay_num
  · rintro ⟨h1, h2⟩
    obtain ⟨c', hc'⟩ := onDay_exists n
    have h3 := onDay_num hc'
    rw [num_inj h1 h3.1 (by omega)]
    exact hc'

/-! ## Month and date -/

theorem monthLoop_leap (d : Int) : monthLoop d 1 monthYearDays.tail 1 =
    if d < 31 then 0 else if d < 60 then 1 else if d < 91 then 2 else if d < 121 then 3
    else if d < 152 then 4 else if d < 182 then 5 else if d < 213 then 6 else if d < 244 then 7
    else if d < 274 then 8 else if d < 305 then 9 else if d < 335 then 10 else 11 := rfl

theorem monthLoop_plain (d : Int) : monthLoop d 0 monthYearDays.tail 1 =
    if d < 31 then 0 else if d < 59 then 1 else if d < 90 then 2 else if d < 120 then 3
    else if d < 151 then 4 else if d < 181 then 5 else if d < 212 then 6 else if d < 243 then 7
    else if d < 273 then 8 else if d < 304 then 9 else if d < 334 then 10 else 11 := rfl

theorem cum_leap {y : Int} (h : Leap y) : cum y 0 = 0 ∧ cum y 1 = 31 ∧ cum y 2 = 60 ∧
    cum y 3 = 91 ∧ cum y 4 = 121 ∧ cum y 5 = 152 ∧ cum y 6 = 182 ∧ cum y 7 = 213 ∧
    cum y 8 = 244 ∧ cum y 9 = 274 ∧ cum y 10 = 305 ∧ cum y 11 = 335 := by
  simp [cum, monthYearDays, h]

theorem cum_plain {y : Int} (h : ¬Leap y) : cum y 0 = 0 ∧ cum y 1 = 31 ∧ cum y 2 = 59 ∧
    cum y 3 = 90 ∧ cum y 4 = 120 ∧ cum y 5 = 151 ∧ cum y 6 = 181 ∧ cum y 7 = 212 ∧
    cum y 8 = 243 ∧ cum y 9 = 273 ∧ cum y 10 = 304 ∧ cum y 11 = 334 := by
  simp [cum, monthYearDays, h]

theorem monthLoop_spec_leap {y d m : Int} (h0 : 0 ≤ d) (h1 : d < 366) (hl : Leap y)
    (hm : monthLoop d 1 monthYearDays.tail 1 = m) :
    0 ≤ m ∧ m ≤ 11 ∧ cum y m ≤ d ∧ d < cum y m + monthLen y m := by
  rw [monthLoop_leap] at hm
  have hc := cum_leap hl
  have hL : monthLen y m = if m = 1 then 29 else if m = 3 ∨ m = 5 ∨ m = 8 ∨ m = 10 then 30 else 31 := by
    unfold monthLen; rw [if_pos hl]
  rw [hL]
  repeat' (split at hm)
  all_goals subst hm
  all_goals simp only [reduceCtorEq, Int.reduceEq, if_true, if_false, or_true, or_false, true_or]
  all_goals omega

theorem monthLoop_spec_plain {y d m : Int} (h0 : 0 ≤ d) (h1 : d < 365) (hl : ¬Leap y)
    (hm : monthLoop d 0 monthYearDays.tail 1 = m) :
    0 ≤ m ∧ m ≤ 11 ∧ cum y m ≤ d ∧ d < cum y m + monthLen y m := by
  rw [monthLoop_plain] at hm
  have hc := cum_plain hl
  have hL : monthLen y m = if m = 1 then 28 else if m = 3 ∨ m = 5 ∨ m = 8 ∨ m = 10 then 30 else 31 := by
    unfold monthLen; rw [if_neg hl]
  rw [hL]
  repeat' (split at hm)
  all_goals subst hm
  all_goals simp only [reduceCtorEq, Int.reduceEq, if_true, if_false, or_true, or_false, true_or]
  all_goals omega

theorem monthLoop_spec {y d : Int} (h0 : 0 ≤ d) (h1 : d < yearLen y) :
    0 ≤ monthLoop d (isLeapYear y) monthYearDays.tail 1 ∧
    monthLoop d (isLeapYear y) monthYearDays.tail 1 ≤ 11 ∧
    cum y (monthLoop d (isLeapYear y) monthYearDays.tail 1) ≤ d ∧
    d < cum y (monthLoop d (isLeapYear y) monthYearDays.tail 1) +
      monthLen y (monthLoop d (isLeapYear y) monthYearDays.tail 1) := by
  rw [isLeapYear_eq]
  unfold yearLen at h1
  by_cases hl : Leap y
  · rw [if_pos hl] at *
    exact monthLoop_spec_leap h0 h1 hl rfl
  · rw [if_neg hl] at *
    exact monthLoop_spec_plain h0 h1 hl rfl

/-- The date of the day `n`, as the code computes it. -/
theorem civil_spec {t n : Int} (hw : Within t n) (hn : n.natAbs ≤ 106000000000) :
    ∃ c : Civil, yearFromTime t = .ok c.year ∧ monthFromTime t = .ok c.month ∧
      dateFromTime t = .ok c.date ∧ OnDay n c ∧ c.year.natAbs ≤ 291000000 ∧
      inLeapYear t = .ok (if Leap c.year then 1 else 0) := by
  obtain ⟨Y, h1, h2, h3, h4⟩ := yearFromTime_spec hw hn
  have hd : dayWithinYear t = .ok (n - dfy Y) := by
    unfold dayWithinYear
    rw [h1]
    simp only [bind, Except.bind, pure, Except.pure]
    rw [dayFromYear_eq (by omega), hw.day]
  have hs := dfy_succ Y
  have hl : inLeapYear t = .ok (isLeapYear Y) := by
    unfold inLeapYear; rw [h1]; rfl
  obtain ⟨m0, m1, m2, m3⟩ := monthLoop_spec (y := Y) (d := n - dfy Y) (by omega) (by omega)
  have hm : monthFromTime t = .ok (monthLoop (n - dfy Y) (isLeapYear Y) monthYearDays.tail 1) := by
    unfold monthFromTime; rw [hd, hl]; rfl
  have hdt : dateFromTime t = .ok (n - dfy Y -
      cum Y (monthLoop (n - dfy Y) (isLeapYear Y) monthYearDays.tail 1) + 1) := by
    unfold dateFromTime
    rw [hd, hl, hm]
    simp only [bind, Except.bind, pure, Except.pure]
    generalize monthLoop (n - dfy Y) (isLeapYear Y) monthYearDays.tail 1 = m at *
    congr 1
    unfold cum
    rw [← isLeapYear_eq]
    split <;> omega
  refine ⟨⟨Y, monthLoop (n - dfy Y) (isLeapYear Y) monthYearDays.tail 1, n - dfy Y -
      cum Y (monthLoop (n - dfy Y) (isLeapYear Y) monthYearDays.tail 1) + 1⟩, h1, hm, hdt, ?_, h4,
      by rw [hl, isLeapYear_eq]⟩
  rw [onDay_iff]
  refine ⟨⟨m0, m1, ?_, ?_⟩, ?_⟩ <;> simp only [num] <;> omega

/-! ## Where `day` is exact -/

theorem within_of_small {t : Int} (h : t.natAbs < 2 ^ 53) : Within t (t / 86400000) where
  lo := by omega
  hi := by omega
  day := by
    unfold day
    rw [rnd_small h, floorDiv_small (by omega) (by omega) h]
    rfl

theorem within_of_day {n : Int} (h : n.natAbs ≤ 106000000000) : Within (86400000 * n) n where
  lo := by omega
  hi := by omega
  day := by
    unfold day
    have e : 86400000 * n = (84375 * n) * 2 ^ 10 := by omega
    rw [e, rnd_mul_pow (by omega), ← e]
    have e2 : 86400000 * n = n * ((86400000 : Nat) : Int) := by
      rw [Int.mul_comm]; rfl
    rw [e2, floorDiv_exact (by omega) (by omega)]

end Verif.Date
