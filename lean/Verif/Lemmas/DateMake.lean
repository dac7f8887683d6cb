import Verif.Lemmas.Date

/-!
# Time values from their parts
-/

namespace Verif.Date

open Spec

/-! ## Rounding of large values -/

theorem rnd_natAbs_large {a : Int} (h : 2 ^ 53 ≤ a.natAbs) :
    2 ^ 53 ≤ (rnd a).natAbs ∧ (rnd a).natAbs ≤ a.natAbs + a.natAbs / 2 ^ 52 := by
  have hne : a.natAbs ≠ 0 := by omega
  have hself := Nat.log2_self_le hne
  have hl : 53 ≤ a.natAbs.log2 := (Nat.le_log2 hne).2 h
  have key : (rnd a).natAbs = rne a.natAbs (2 ^ (a.natAbs.log2 - 52)) * 2 ^ (a.natAbs.log2 - 52) := by
    unfold rnd floorDiv
    rw [if_pos (by omega)]
    simp only [Nat.div_one, Nat.one_mul]
    split
    · simp only [Int.natAbs_natCast]
    · simp only [Int.natAbs_neg, Int.natAbs_natCast]
  obtain ⟨e, he⟩ : ∃ e, a.natAbs.log2 = 53 + e := ⟨a.natAbs.log2 - 53, by omega⟩
  rw [he, show 53 + e - 52 = e + 1 by omega] at key
  rw [key]
  rw [he] at hself
  have hp : 0 < 2 ^ (e + 1) := Nat.pow_pos (by omega)
  have e2 : 2 ^ (53 + e) = 2 ^ 52 * 2 ^ (e + 1) := by rw [← Nat.pow_add]; congr 1; omega
  rw [e2] at hself
  generalize hP : 2 ^ (e + 1) = P at *
  have h1 := rne_ge a.natAbs P
  have h2 := rne_le a.natAbs P
  have h3 := Nat.div_mul_le_self a.natAbs P
  have h4 : 2 ^ 52 ≤ a.natAbs / P := (Nat.le_div_iff_mul_le hp).2 hself
  have hP2 : 2 ≤ P := by
    rw [← hP, Nat.pow_succ]
    have : 0 < 2 ^ e := Nat.pow_pos (by omega)
    omega
  constructor
  · have := Nat.mul_le_mul (Nat.le_trans h4 h1) hP2
    omega
  · have h5 := Nat.mul_le_mul_right P h2
    rw [Nat.add_mul] at h5
    have h6 : P ≤ a.natAbs / 2 ^ 52 := by
      rw [Nat.le_div_iff_mul_le (by omega)]
      have := Nat.mul_comm P (2 ^ 52)
      omega
    omega

theorem rnd_cases (a : Int) : rnd a = a ∨ (2 ^ 53 ≤ a.natAbs ∧ 2 ^ 53 ≤ (rnd a).natAbs ∧
    (rnd a).natAbs ≤ a.natAbs + a.natAbs / 2 ^ 52) := by
  rcases Nat.lt_or_ge a.natAbs (2 ^ 53) with h | h
  · exact Or.inl (rnd_small h)
  · exact Or.inr ⟨h, rnd_natAbs_large h⟩

theorem two_pow_1024 : 2 ^ 64 < 2 ^ 1024 := Nat.pow_lt_pow_right (by omega) (by omega)

theorem fin_eq {a : Int} (h : a.natAbs < 2 ^ 63) : fin a = some (rnd a) := by
  unfold fin
  rw [if_pos]
  have := two_pow_1024
  have h2 : (rnd a).natAbs < 2 ^ 64 := by
    rcases rnd_cases a with h1 | ⟨_, _, h1⟩
    · rw [h1]; omega
    · omega
  exact Nat.lt_trans h2 this

theorem fin_small {a : Int} (h : a.natAbs < 2 ^ 53) : fin a = some a := by
  rw [fin_eq (by omega), rnd_small h]

/-- Clipping undoes the rounding, in that only values too large are rounded. -/
theorem timeClip_fin {u : Int} (h : u.natAbs < 2 ^ 63) :
    (Valid u ∧ timeClip (fin u) = some u) ∨ (¬Valid u ∧ timeClip (fin u) = none) := by
  rw [fin_eq h]
  unfold timeClip Valid
  simp only
  rcases rnd_cases u with h1 | ⟨h1, h2, h3⟩
  · rw [h1]
    split
    · right; exact ⟨by omega, rfl⟩
    · left; exact ⟨by omega, rfl⟩
  · right
    rw [if_pos (by omega)]
    exact ⟨by omega, rfl⟩

/-! ## Time within the day -/

theorem makeTime_eq {k : Clock} (h : Modest k) :
    makeTime (some k.hour) (some k.min) (some k.sec) (some k.ms) = some k.total := by
  obtain ⟨h1, h2, h3, h4⟩ := h
  unfold makeTime msPerHour msPerMinute msPerSecond
  simp only
  rw [fin_small (by omega), fin_small (by omega), fin_small (by omega)]
  simp only [dadd]
  rw [fin_small (by omega)]
  simp only [dadd]
  rw [fin_small (by omega)]
  simp only [dadd]
  rw [fin_small (by omega)]
  congr 1
  unfold Clock.total
  omega

theorem modest_total {k : Clock} (h : Modest k) : k.total.natAbs < 2 ^ 53 := by
  obtain ⟨h1, h2, h3, h4⟩ := h
  unfold Clock.total
  omega

theorem adj_mod (a b : Int) (hb : 0 < b) :
    (if a.tmod b < 0 then a.tmod b + b else a.tmod b) = a % b := by
  have h1 := Int.tmod_eq_emod (a := a) (b := b)
  have h2 := Int.emod_nonneg a (show b ≠ 0 by omega)
  have h3 := Int.emod_lt_of_pos a hb
  by_cases hc : 0 ≤ a ∨ b ∣ a
  · rw [if_pos hc] at h1
    split <;> omega
  · rw [if_neg hc] at h1
    split <;> omega

theorem tdiv_cases (a b : Int) : a.tdiv b = if 0 ≤ a then a / b else -((-a) / b) := by
  split
  · rename_i h; exact Int.tdiv_eq_ediv_of_nonneg h
  · rename_i h
    have h1 : a = -(-a) := by omega
    rw [h1, Int.neg_tdiv, Int.tdiv_eq_ediv_of_nonneg (by omega), Int.neg_neg]

theorem timeWithinDay_eq (t : Int) : timeWithinDay t = t % 86400000 := by
  unfold timeWithinDay msPerDay
  exact adj_mod t 86400000 (by omega)

theorem msFromTime_eq (t : Int) : msFromTime t = t % 1000 := by
  unfold msFromTime msPerSecond
  exact adj_mod t 1000 (by omega)

theorem secFromTime_eq (t : Int) :
    secFromTime t = (if 0 ≤ t then t / 1000 else -((-t) / 1000)) % 60 := by
  unfold secFromTime msPerSecond
  simp only
  rw [adj_mod _ 60 (by omega), tdiv_cases]

theorem minFromTime_eq (t : Int) :
    minFromTime t = (if 0 ≤ t then t / 60000 else -((-t) / 60000)) % 60 := by
  unfold minFromTime msPerMinute
  simp only
  rw [adj_mod _ 60 (by omega), tdiv_cases]

theorem hourFromTime_eq (t : Int) :
    hourFromTime t = (if 0 ≤ t then t / 3600000 else -((-t) / 3600000)) % 24 := by
  unfold hourFromTime msPerHour
  simp only
  rw [adj_mod _ 24 (by omega), tdiv_cases]

/-- The time of the day as the code reports it. -/
def clockOf (t : Int) : Clock := ⟨hourFromTime t, minFromTime t, secFromTime t, msFromTime t⟩

theorem clockOf_exists (t : Int) : (clockOf t).Exists := by
  unfold clockOf Clock.Exists
  simp only
  rw [hourFromTime_eq, minFromTime_eq, secFromTime_eq, msFromTime_eq]
  split <;> omega

theorem clockOf_total {t : Int} (h : 0 ≤ t ∨ 3600000 ∣ t) : (clockOf t).total = t % 86400000 := by
  unfold clockOf Clock.total
  simp only
  rw [hourFromTime_eq, minFromTime_eq, secFromTime_eq, msFromTime_eq]
  split <;> omega

theorem clockOf_total_iff (t : Int) :
    (clockOf t).total = t % 86400000 ↔ 0 ≤ t ∨ 3600000 ∣ t := by
  refine ⟨?_, clockOf_total⟩
  unfold clockOf Clock.total
  simp only
  rw [hourFromTime_eq, minFromTime_eq, secFromTime_eq, msFromTime_eq]
  split
  · intro; left; assumption
  · intro h
    right
    omega

theorem modest_of_exists {k : Clock} (h : k.Exists) : Modest k := by
  obtain ⟨h1, h2, h3, h4⟩ := h
  unfold Modest
  omega

theorem total_range {k : Clock} (h : k.Exists) : 0 ≤ k.total ∧ k.total < 86400000 := by
  obtain ⟨h1, h2, h3, h4⟩ := h
  unfold Clock.total
  omega

theorem total_inj {k k' : Clock} (h : k.Exists) (h' : k'.Exists) (e : k.total = k'.total) :
    k = k' := by
  obtain ⟨a, b, c, d⟩ := k
  obtain ⟨a', b', c', d'⟩ := k'
  obtain ⟨h1, h2, h3, h4⟩ := h
  obtain ⟨h1', h2', h3', h4'⟩ := h'
  simp only [Clock.total] at *
  have ea : a = a' := by omega
  have eb : b = b' := by omega
  have ec : c = c' := by omega
  have ed : d = d' := by omega
  rw [ea, eb, ec, ed]

theorem shows_iff {t : Int} {c : Civil} {k : Clock} :
    Shows t c k ↔ OnDay (t / 86400000) c ∧ k.Exists ∧ k.total = t % 86400000 := by
  constructor
  · rintro ⟨n, h1, h2, h3⟩
    have := total_range h2
    have hn : t / 86400000 = n := by omega
    rw [hn]
    exact ⟨h1, h2, by omega⟩
  · rintro ⟨h1, h2, h3⟩
    exact ⟨_, h1, h2, by omega⟩

/-! ## `make_day` -/

theorem num_first (y m : Int) : num ⟨y, m, 1⟩ = dfy y + cum y m := by
  unfold num; simp only; omega

theorem first_exists (y : Int) {m : Int} (h0 : 0 ≤ m) (h1 : m ≤ 11) :
    Civil.Exists ⟨y, m, 1⟩ := by
  have := monthLen_bounds y m
  refine ⟨h0, h1, ?_, ?_⟩ <;> simp only <;> omega

theorem num_bounds {y m : Int} (h0 : 0 ≤ m) (h1 : m ≤ 11) (hy : y.natAbs ≤ 289000000) :
    (dfy y + cum y m).natAbs ≤ 105570000000 := by
  have h := cum_in_year (y := y) h0 h1
  have := yearLen_bounds y
  have := monthLen_bounds y m
  have e : (dfy y).natAbs ≤ 105560000000 := by unfold dfy; omega
  omega

/-- `make_day`, for every year in range, whatever the month and day. -/
theorem makeDay_eq {y m d : Int} (hy : (y + m / 12).natAbs ≤ 289000000) (hm : m.natAbs < 2 ^ 53)
    (hd : d.natAbs < 2 ^ 52) :
    ∃ n, OnDay n ⟨y + m / 12, m % 12, 1⟩ ∧ n.natAbs ≤ 105570000000 ∧
      makeDay (some y) (some m) (some d) = .ok (some (n + d - 1)) := by
  have hm0 : 0 ≤ m % 12 := by omega
  have hm1 : m % 12 ≤ 11 := by omega
  refine ⟨dfy (y + m / 12) + cum (y + m / 12) (m % 12), ?_, num_bounds hm0 hm1 hy, ?_⟩
  · rw [onDay_iff]
    exact ⟨first_exists _ hm0 hm1, num_first _ _⟩
  have hb := num_bounds hm0 hm1 hy
  have hin := cum_in_year (y := y + m / 12) hm0 hm1
  have hyl := yearLen_bounds (y + m / 12)
  unfold makeDay
  simp only
  rw [floorDiv_small (by omega) (by omega) hm]
  rw [show ((12 : Nat) : Int) = 12 from rfl, fin_small (by omega)]
  simp only
  generalize hY : y + m / 12 = Y at *
  have hw := within_of_day (n := dfy Y) (by unfold dfy; omega)
  obtain ⟨c, h1, h2, h3, h4, h5, h6⟩ := civil_spec hw (by unfold dfy; omega)
  -- the year of its first day is the year itself
  have hc : c = ⟨Y, 0, 1⟩ := by
    have h7 := onDay_num h4
    refine num_inj h7.1 (first_exists Y (by omega) (by omega)) ?_
    rw [h7.2, num_first, cum_zero]; omega
  rw [hc] at h6
  have hI : toI64 (some m) = .ok m := by simp only [toI64]; rw [if_pos (by omega)]
  have hI2 : toI64 (some Y) = .ok Y := by simp only [toI64]; rw [if_pos (by omega)]
  rw [hI, hI2]
  simp only [bind, Except.bind, pure, Except.pure]
  rw [timeFromYear_eq (by omega)]
  simp only
  rw [h6]
  simp only
  rw [adj_mod m 12 (by omega), hw.day]
  have hcum : dfy Y + (monthYearDays.getD (m % 12).toNat 0 +
      (if 1 < m % 12 then (if Leap Y then 1 else 0) else 0)) = dfy Y + cum Y (m % 12) := rfl
  rw [hcum, rnd_small (by omega)]
  simp only [dadd]
  rw [fin_small (by omega)]
  simp only [dadd]
  rw [fin_small (by omega)]
  congr 2

/-! ## `make_date` and clipping -/

theorem makeDate_eq {d t : Int} (hd : d.natAbs ≤ 106000000000) :
    makeDate (some d) (some t) = fin (d * 86400000 + t) := by
  unfold makeDate msPerDay
  simp only [dmul]
  have e : d * 86400000 = (d * 84375) * 2 ^ 10 := by omega
  have h : fin (d * 86400000) = some (d * 86400000) := by
    rw [fin_eq (by omega)]
    congr 1
    rw [e, rnd_mul_pow (by omega)]
  rw [h]
  rfl

/-- Making a time value from any parts and clipping it. -/
theorem makeDay_total {c : Civil} (k : Clock) (hc : Near c) :
    ∃ n : Int, makeDay (some c.year) (some c.month) (some c.date) = .ok (some n) ∧
      makeDate (some n) (some k.total) = fin (n * 86400000 + k.total) ∧
      Means c k (n * 86400000 + k.total) ∧ n.natAbs ≤ 106000000000 := by
  have h4 := hc.2.2
  obtain ⟨n, h1, h2, h3⟩ := makeDay_eq hc.1 hc.2.1 (show c.date.natAbs < 2 ^ 52 by omega)
  exact ⟨n + c.date - 1, h3, makeDate_eq (by omega), ⟨n, h1, rfl⟩, by omega⟩

/-- A date read off the calendar is near. -/
theorem near_of_exists {c : Civil} (h : c.Exists) (hy : c.year.natAbs ≤ 289000000) : Near c := by
  obtain ⟨h0, h1, h2, h3⟩ := h
  have := monthLen_bounds c.year c.month
  have e : c.month / 12 = 0 := by omega
  unfold Near
  rw [e]
  omega

/-- A date and time that exist mean what they show. -/
theorem means_of_shows {t : Int} {c : Civil} {k : Clock} (h : Shows t c k) : Means c k t := by
  obtain ⟨n, h1, h2, h3⟩ := h
  have h4 := onDay_num h1
  obtain ⟨m0, m1, m2, m3⟩ := h4.1
  have e : c.month / 12 = 0 := by omega
  have e2 : c.month % 12 = c.month := by omega
  refine ⟨n - c.date + 1, ?_, ?_⟩
  · rw [e, e2, Int.add_zero, onDay_iff]
    refine ⟨first_exists _ m0 m1, ?_⟩
    rw [num_first]
    have := h4.2
    unfold num at this
    omega
  · rw [h3]; omega

/-- The time value meant is unique. -/
theorem means_unique {t t' : Int} {c : Civil} {k : Clock} (h : Means c k t) (h' : Means c k t') :
    t = t' := by
  obtain ⟨n, h1, h2⟩ := h
  obtain ⟨n', h1', h2'⟩ := h'
  have e : n = n' := by rw [← (onDay_num h1).2, (onDay_num h1').2]
  rw [h2, h2', e]

/-- The date and time of a time value are unique. -/
theorem shows_unique {t : Int} {c c' : Civil} {k k' : Clock} (h : Shows t c k)
    (h' : Shows t c' k') : c = c' ∧ k = k' := by
  rw [shows_iff] at h h'
  have e1 := onDay_num h.1
  have e2 := onDay_num h'.1
  exact ⟨num_inj e1.1 e2.1 (by omega), total_inj h.2.1 h'.2.1 (by omega)⟩

/-! ## Entering and leaving local time -/

theorem enter_eq {z : Option Int} {t : Int} (ht : t.natAbs ≤ 2 ^ 60)
    (hz : (off z).natAbs ≤ 2 ^ 60) : enter z t = .ok (t + off z) := by
  unfold enter
  cases z with
  | none => simp [off]
  | some tza =>
    simp only [localTime, i64, off] at *
    rw [if_pos (by omega)]

theorem leave_eq {z : Option Int} {u : Int} (hu : u.natAbs ≤ 9170000000000000000)
    (hz : (off z).natAbs ≤ 86400000) :
    ∃ r, leave z (fin u) = .ok r ∧
      ((Valid (u - off z) ∧ r = some (u - off z)) ∨ (¬Valid (u - off z) ∧ r = none)) := by
  unfold leave
  cases z with
  | none =>
    have e : u - off none = u := by simp [off]
    rw [e]
    exact ⟨_, rfl, timeClip_fin (by omega)⟩
  | some tza =>
    simp only [off] at *
    rw [fin_eq (by omega)]
    have hr : (rnd u).natAbs ≤ u.natAbs + u.natAbs / 2 ^ 52 := by
      rcases rnd_cases u with h | ⟨_, _, h⟩
      · rw [h]; omega
      · exact h
    have h1 : toI64 (some (rnd u)) = .ok (rnd u) := by
      simp only [toI64]; rw [if_pos (by omega)]
    have h2 : i64 (rnd u - tza) = .ok (rnd u - tza) := by
      unfold i64; rw [if_pos (by omega)]
    have hutc : utc tza (some (rnd u)) = .ok (some (rnd (rnd u - tza))) := by
      unfold utc
      rw [h1]
      simp only [bind, Except.bind, h2]
      rfl
    rw [hutc]
    simp only [bind, Except.bind, pure, Except.pure]
    refine ⟨_, rfl, ?_⟩
    unfold timeClip Valid
    simp only
    rcases rnd_cases u with h3 | ⟨h3, h4, h5⟩
    · rw [h3] at *
      rcases rnd_cases (u - tza) with h6 | ⟨h6, h7, h8⟩
      · rw [h6]
        split
        · right; exact ⟨by omega, rfl⟩
        · left; exact ⟨by omega, rfl⟩
      · right
        rw [if_pos (by omega)]
        exact ⟨by omega, rfl⟩
    · right
      refine ⟨by omega, ?_⟩
      rw [if_pos]
      rcases rnd_cases (rnd u - tza) with h6 | ⟨h6, h7, h8⟩
      · rw [h6]; omega
      · omega

end Verif.Date
