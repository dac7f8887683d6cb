import Verif.Lemmas.DateMake

/-!
# Setters
-/

namespace Verif.Date

open Spec

theorem year_bound {n : Int} {c : Civil} (h : OnDay n c) (hn : n.natAbs ≤ 105000000000) :
    c.year.natAbs ≤ 288000000 := by
  have h1 := onDay_num h
  have h2 := cum_in_year (y := c.year) h1.1.1 h1.1.2.1
  have h3 := h1.2
  have h4 := h1.1.2.2
  have h5 := yearLen_bounds c.year
  unfold num at h3
  by_contra hc
  rcases Int.lt_or_le c.year 0 with h0 | h0
  · have := dfy_mono (show c.year ≤ -288000000 by omega)
    have e : dfy (-288000000) = -105190559528 := by decide
    omega
  · have := dfy_mono (show 288000000 ≤ c.year by omega)
    have e : dfy 288000000 = 105189120472 := by decide
    omega

/-- What the code reads off a time value. -/
theorem reads {t : Int} {c : Civil} {k : Clock} (ht : t.natAbs < 2 ^ 53) (h : Shows t c k) :
    yearFromTime t = .ok c.year ∧ monthFromTime t = .ok c.month ∧ dateFromTime t = .ok c.date ∧
      timeWithinDay t = k.total ∧ c.Exists ∧ c.year.natAbs ≤ 288000000 ∧ day t = t / 86400000 := by
  have hw := within_of_small ht
  obtain ⟨c', h1, h2, h3, h4, h5, h6⟩ := civil_spec hw (by omega)
  rw [shows_iff] at h
  have e1 := onDay_num h.1
  have e2 := onDay_num h4
  have e : c' = c := num_inj e2.1 e1.1 (by omega)
  subst e
  exact ⟨h1, h2, h3, by rw [timeWithinDay_eq]; omega, e1.1, year_bound h4 (by omega), hw.day⟩

/-- The time of the day is read rightly where the division is exact. -/
theorem clock_reads {t : Int} {c : Civil} {k : Clock} (h : Shows t c k)
    (hh : 0 ≤ t ∨ 3600000 ∣ t) :
    hourFromTime t = k.hour ∧ minFromTime t = k.min ∧ secFromTime t = k.sec ∧
      msFromTime t = k.ms := by
  rw [shows_iff] at h
  have e := total_inj (clockOf_exists t) h.2.1 (by rw [clockOf_total hh, h.2.2])
  rw [← e]
  exact ⟨rfl, rfl, rfl, rfl⟩

theorem means_shift {c : Civil} {k : Clock} {u o : Int} (h : Means c k u) {r : Option Int}
    (hr : (Valid (u - o) ∧ r = some (u - o)) ∨ (¬Valid (u - o) ∧ r = none)) : Becomes o c k r :=
  ⟨u - o, by rw [show u - o + o = u by omega]; exact h, hr⟩

/-- The end of the setters of years, months and days. -/
theorem leave_date {z : Option Int} {c : Civil} {k : Clock} (hk : k.Exists) (hc : Near c)
    (hz : (off z).natAbs ≤ 86400000) :
    ∃ n r, makeDay (some c.year) (some c.month) (some c.date) = .ok n ∧
      leave z (makeDate n (some k.total)) = .ok r ∧ Becomes (off z) c k r := by
  obtain ⟨n, h1, h2, h3, h4⟩ := makeDay_total k hc
  have := total_range hk
  obtain ⟨r, h5, h6⟩ := leave_eq (z := z) (u := n * 86400000 + k.total) (by omega) hz
  exact ⟨some n, r, h1, by rw [h2]; exact h5, means_shift h3 h6⟩

/-- The end of the setters of the time of the day. -/
theorem leave_time {z : Option Int} {t : Int} {c : Civil} {k k' : Clock} (hs : Shows t c k)
    (ht : t.natAbs < 2 ^ 53) (hk : Modest k') (hz : (off z).natAbs ≤ 86400000) :
    ∃ r, leave z (makeDate (some (rnd (day t)))
        (makeTime (some k'.hour) (some k'.min) (some k'.sec) (some k'.ms))) = .ok r ∧
      Becomes (off z) c k' r := by
  obtain ⟨_, _, _, _, he, hy, hd⟩ := reads ht hs
  rw [hd, rnd_small (by omega), makeTime_eq hk, makeDate_eq (by omega)]
  have hb := modest_total hk
  obtain ⟨r, h5, h6⟩ := leave_eq (z := z) (u := t / 86400000 * 86400000 + k'.total) (by omega) hz
  refine ⟨r, h5, means_shift ?_ h6⟩
  -- the same day at the new time
  have hm := means_of_shows hs
  obtain ⟨n, h1, h2⟩ := hm
  have hs' := (shows_iff.1 hs)
  have := total_range hs'.2.1
  refine ⟨n, h1, ?_⟩
  have : n + c.date - 1 = t / 86400000 := by omega
  rw [this]

theorem enter_valid {z : Option Int} {t : Int} (ht : Valid t)
    (hz : (off z).natAbs ≤ 86400000) :
    enter z t = .ok (t + off z) ∧ (t + off z).natAbs < 2 ^ 53 := by
  obtain ⟨h1, h2⟩ := ht
  exact ⟨enter_eq (by omega) (by omega), by omega⟩

theorem argOr_map (rest : List Int) (a : Int) (i : Nat) (x : Int) :
    argOr ((a :: rest).map some) (i + 1) (some x) = some (rest.getD i x) := by
  unfold argOr
  simp only [List.map_cons, List.getD_eq_getElem?_getD, List.getElem?_cons_succ,
    List.getElem?_map]
  cases rest[i]? <;> rfl

theorem arg_map (rest : List Int) (a : Int) : arg ((a :: rest).map some) 0 = some a := rfl

theorem arg_map_succ (rest : List Int) (a : Int) (i : Nat) (x : Int)
    (h : i + 1 < ((a :: rest).map some).length) :
    arg ((a :: rest).map some) (i + 1) = some (rest.getD i x) := by
  unfold arg
  simp only [List.map_cons, List.getD_eq_getElem?_getD, List.getElem?_cons_succ,
    List.getElem?_map]
  simp only [List.map_cons, List.length_cons, List.length_map] at h
  have : i < rest.length := by omega
  simp [this]

theorem getD_short (rest : List Int) (a : Int) (i : Nat) (x : Int)
    (h : ¬(i + 1 < ((a :: rest).map some).length)) : rest.getD i x = x := by
  simp only [List.map_cons, List.length_cons, List.length_map] at h
  simp [List.getD_eq_getElem?_getD, List.getElem?_eq_none (show rest.length ≤ i by omega)]

end Verif.Date
