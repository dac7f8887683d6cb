import Verif.Lemmas.DateSet

/-!
# C43, C68: dates

The specification (`Verif/Spec/Date.lean`) is the proleptic Gregorian calendar: the leap year rule,
the lengths of the months, the successor of a date, and the one fact that day 0 is 1 January 1970.
-/

namespace Verif.Date

open Spec

/-! ## C43 -/

/-- **C43, the calendar.**  For every integer of magnitude below `2 ^ 53` (which includes all valid
time values and their local times, before and after 1970): the getters end without undefined
behaviour, the year, month and day they report are those of the day in which the time lies, and
every part is in its range. -/
theorem C43_calendar {t : Int} (ht : t.natAbs < 2 ^ 53) :
    ∃ (c : Civil) (k : Clock),
      utcFields t = .ok [c.year, c.month, c.date, k.hour, k.min, k.sec, k.ms] ∧
      c.Exists ∧ k.Exists ∧ ∃ n, OnDay n c ∧ n * 86400000 ≤ t ∧ t < (n + 1) * 86400000 := by
  have hw := within_of_small ht
  obtain ⟨c, h1, h2, h3, h4, h5, h6⟩ := civil_spec hw (by omega)
  refine ⟨c, clockOf t, ?_, (onDay_num h4).1, clockOf_exists t, _, h4, hw.lo, hw.hi⟩
  unfold utcFields
  rw [h1, h2, h3]
  rfl

example : (8640000000000000 : Int).natAbs < 2 ^ 53 := by decide
example : (-62198755200001 : Int).natAbs < 2 ^ 53 := by decide

/-- The calendar leaves no choice: a day has one date, and a date one day. -/
theorem C43_determined {n n' : Int} {c c' : Civil} (h : OnDay n c) (h' : OnDay n' c') :
    n = n' ↔ c = c' := by
  have h1 := onDay_num h
  have h2 := onDay_num h'
  constructor
  · intro e; exact num_inj h1.1 h2.1 (by omega)
  · intro e; rw [← h1.2, ← h2.2, e]

/-- Every day has a date. -/
theorem C43_total (n : Int) : ∃ c, OnDay n c := onDay_exists n

/-- **C43 (partial).**  For every valid time value from 1970 on, and for every earlier one at a full
hour: the parts reported are the date and time of the time value; putting them together gives the
time value again; and so does `Date.UTC`, unless the year is one of 0 to 99 (which `Date.UTC`, as
specified, takes for 1900 to 1999).

Missing: other times before 1970, for which it is false (`C43_violated`, `C43_exactly`). -/
theorem C43_partial {t : Int} (ht : Valid t) (hh : 0 ≤ t ∨ 3600000 ∣ t) :
    ∃ (c : Civil) (k : Clock),
      utcFields t = .ok [c.year, c.month, c.date, k.hour, k.min, k.sec, k.ms] ∧ Shows t c k ∧
      (∃ n, makeDay (some c.year) (some c.month) (some c.date) = .ok n ∧
        makeDate n (makeTime (some k.hour) (some k.min) (some k.sec) (some k.ms)) = some t) ∧
      ((c.year < 0 ∨ 99 < c.year) →
        dateUTC ([c.year, c.month, c.date, k.hour, k.min, k.sec, k.ms].map some) =
          .ok (some t)) := by
  obtain ⟨v1, v2⟩ := ht
  have hw := within_of_small (t := t) (by omega)
  obtain ⟨c, h1, h2, h3, h4, h5, h6⟩ := civil_spec hw (by omega)
  have hs : Shows t c (clockOf t) :=
    shows_iff.2 ⟨h4, clockOf_exists t, clockOf_total hh⟩
  have he := (onDay_num h4).1
  have hy := year_bound h4 (by omega)
  have hmt := makeTime_eq (modest_of_exists (clockOf_exists t))
  obtain ⟨n, m1, m2, m3, m4⟩ := makeDay_total (clockOf t) (near_of_exists he (by omega))
  have hn : n * 86400000 + (clockOf t).total = t := means_unique m3 (means_of_shows hs)
  rw [hn] at m2
  have hmd : makeDate (some n) (makeTime (some (clockOf t).hour) (some (clockOf t).min)
      (some (clockOf t).sec) (some (clockOf t).ms)) = some t := by
    rw [hmt, m2, fin_small (by omega)]
  refine ⟨c, clockOf t, ?_, hs, ⟨_, m1, hmd⟩, ?_⟩
  · unfold utcFields
    rw [h1, h2, h3]
    rfl
  · intro hyr
    have hcent : century (some c.year) = some c.year := by
      simp only [century]; rw [if_neg (by omega)]
    unfold dateUTC
    have e0 : arg ([c.year, c.month, c.date, (clockOf t).hour, (clockOf t).min, (clockOf t).sec,
      (clockOf t).ms].map some) 0 = some c.year := rfl
    rw [e0, hcent]
    have e1 : makeDay (some c.year) (argOr ([c.year, c.month, c.date, (clockOf t).hour,
        (clockOf t).min, (clockOf t).sec, (clockOf t).ms].map some) 1 (some 0))
        (argOr ([c.year, c.month, c.date, (clockOf t).hour, (clockOf t).min, (clockOf t).sec,
        (clockOf t).ms].map some) 2 (some 1)) = .ok (some n) := m1
    rw [e1]
    have e2 : timeClip (some t) = some t := by
      simp only [timeClip]; rw [if_neg (by omega)]
    have e3 := congrArg timeClip hmd
    rw [e2] at e3
    exact congrArg Except.ok e3

/-- 29 February 2000, 12:34:56.789. -/
example : Valid 951827696789 ∧ (0 ≤ (951827696789 : Int) ∨ 3600000 ∣ (951827696789 : Int)) := by
  unfold Valid; decide

/-- 1 January 1900. -/
example : Valid (-2208988800000) ∧
    (0 ≤ (-2208988800000 : Int) ∨ 3600000 ∣ (-2208988800000 : Int)) := by unfold Valid; decide

/-- **C43, exactly where it fails.**  The time of the day reported is the right one only from 1970
on and at full hours. -/
theorem C43_exactly {t : Int} (ht : t.natAbs < 2 ^ 53) {c : Civil} {k : Clock}
    (hf : utcFields t = .ok [c.year, c.month, c.date, k.hour, k.min, k.sec, k.ms]) :
    Shows t c k ↔ (0 ≤ t ∨ 3600000 ∣ t) := by
  have hw := within_of_small ht
  obtain ⟨c', h1, h2, h3, h4, h5, h6⟩ := civil_spec hw (by omega)
  unfold utcFields at hf
  rw [h1, h2, h3] at hf
  simp only [bind, Except.bind, pure, Except.pure, Except.ok.injEq, List.cons.injEq, and_true] at hf
  obtain ⟨e1, e2, e3, e4, e5, e6, e7⟩ := hf
  have ec : c = c' := by
    cases c; cases c'
    simp only at e1 e2 e3
    rw [e1, e2, e3]
  have ek : k = clockOf t := by
    cases k
    simp only at e4 e5 e6 e7
    unfold clockOf
    rw [e4, e5, e6, e7]
  subst ec
  rw [← clockOf_total_iff, ek, shows_iff]
  constructor
  · exact fun h => h.2.2
  · exact fun h => ⟨h4, clockOf_exists t, h⟩

/-- **C43 (violated).**  One millisecond before 1970 the getters report midnight (of the right
day) plus 999 milliseconds, and `Date.UTC` of these parts is almost a day earlier. -/
theorem C43_violated :
    utcFields (-1) = .ok [1969, 11, 31, 0, 0, 0, 999] ∧
    dateUTC ([1969, 11, 31, 0, 0, 0, 999].map some) = .ok (some (-86399001)) ∧
    Shows (-1) ⟨1969, 11, 31⟩ ⟨23, 59, 59, 999⟩ := by
  refine ⟨by decide +kernel, by decide +kernel, -1, ?_, ?_, by decide⟩
  · exact .prev (by unfold Civil.Exists; decide) .epoch
  · unfold Clock.Exists; decide

/-- **C43, `Date.UTC`.**  For any parts, in their usual ranges or not, with the year (after the
months have been carried) up to 289 million: `Date.UTC` gives the time value meant, or NaN if it is
not valid, without undefined behaviour. -/
theorem C43_utc {c : Civil} {k : Clock} (hc : Near c) (hk : Modest k)
    (hy : c.year < 0 ∨ 99 < c.year) :
    ∃ r, dateUTC ([c.year, c.month, c.date, k.hour, k.min, k.sec, k.ms].map some) = .ok r ∧
      Becomes 0 c k r := by
  obtain ⟨n, m1, m2, m3, m4⟩ := makeDay_total k hc
  have hb := modest_total hk
  have hcent : century (some c.year) = some c.year := by
    simp only [century]; rw [if_neg (by omega)]
  have hcl := timeClip_fin (u := n * 86400000 + k.total) (by omega)
  refine ⟨timeClip (fin (n * 86400000 + k.total)), ?_, _, ?_, hcl⟩
  · rw [← m2, ← makeTime_eq hk]
    unfold dateUTC
    have e0 : arg ([c.year, c.month, c.date, k.hour, k.min, k.sec, k.ms].map some) 0 =
      some c.year := rfl
    rw [e0, hcent]
    have e1 : makeDay (some c.year)
        (argOr ([c.year, c.month, c.date, k.hour, k.min, k.sec, k.ms].map some) 1 (some 0))
        (argOr ([c.year, c.month, c.date, k.hour, k.min, k.sec, k.ms].map some) 2 (some 1)) =
        .ok (some n) := m1
    rw [e1]
    rfl
  · rw [Int.add_zero]; exact m3

/-- `Date.UTC(2023, 25, -3, 30, -90, 0, 100000)`. -/
example : Near ⟨2023, 25, -3⟩ ∧ Modest ⟨30, -90, 0, 100000⟩ := by
  unfold Near Modest; decide

/-- **C43 (violated).**  Beyond, `Date.UTC` has undefined behaviour: the milliseconds of the year
overflow, where NaN is specified. -/
theorem C43_violated_overflow : dateUTC [some 300000000, some 0] = .error .overflow ∧
    dateUTC [some (10 ^ 19), some 0] = .error .cast := by decide +kernel

/-- **C43, the weekday.**  It is in its range, day 0 is a Thursday, it is the same for the whole
day, and advances by one each day. -/
theorem C43_weekday {t : Int} (ht : t.natAbs < 2 ^ 53) :
    (0 ≤ weekDay t ∧ weekDay t ≤ 6) ∧
    (0 ≤ t → t < 86400000 → weekDay t = 4) ∧
    (∀ t' : Int, t'.natAbs < 2 ^ 53 → t' / 86400000 = t / 86400000 → weekDay t' = weekDay t) ∧
    (∀ t' : Int, t'.natAbs < 2 ^ 53 → t' / 86400000 = t / 86400000 + 1 →
      weekDay t' = (weekDay t + 1) % 7) := by
  have key : ∀ t : Int, t.natAbs < 2 ^ 53 → weekDay t = (t / 86400000 + 4) % 7 := by
    intro t h
    unfold weekDay
    simp only
    rw [adj_mod _ 7 (by omega), (within_of_small h).day]
  rw [key t ht]
  refine ⟨by omega, by omega, ?_, ?_⟩
  · intro t' h' e
    rw [key t' h', e]
  · intro t' h' e
    rw [key t' h', e]
    omega

/-! ## C68

`z` is `none` for the UTC setters, and `some tza` for the local ones, with the offset `tza` of the
time zone.  `c` and `k` are the date and time of the date object before the call (in UTC or local
time), and the claim is that the object becomes what the same parts with the given ones replaced
mean. -/

/-- **C68 (partial), `setDate` and `setUTCDate`.** -/
theorem C68_setDate {z : Option Int} {t : Int} {c : Civil} {k : Clock} (ht : Valid t)
    (hz : (off z).natAbs ≤ 86400000) (hs : Shows (t + off z) c k) {d : Int}
    (hn : Near { c with date := d }) :
    ∃ r, setDate z (some t) [some d] = .ok r ∧ Becomes (off z) { c with date := d } k r := by
  obtain ⟨h1, h2⟩ := enter_valid ht hz
  obtain ⟨ry, rm, rd, rt, _, hy, _⟩ := reads h2 hs
  obtain ⟨n, r, m1, m2, m3⟩ := leave_date (shows_iff.1 hs).2.1 hn hz
  refine ⟨r, ?_, m3⟩
  simp only [setDate, h1, ry, rm, rt, bind, Except.bind]
  rw [rnd_small (by omega)]
  simp only at m1
  rw [show arg [some d] 0 = some d from rfl, m1]
  exact m2

/-- **C68 (partial), `setMonth` and `setUTCMonth`**, with or without a day. -/
theorem C68_setMonth {z : Option Int} {t : Int} {c : Civil} {k : Clock} (ht : Valid t)
    (hz : (off z).natAbs ≤ 86400000) (hs : Shows (t + off z) c k) {m : Int} {rest : List Int}
    (hn : Near { c with month := m, date := rest.getD 0 c.date }) :
    ∃ r, setMonth z (some t) ((m :: rest).map some) = .ok r ∧
      Becomes (off z) { c with month := m, date := rest.getD 0 c.date } k r := by
  obtain ⟨h1, h2⟩ := enter_valid ht hz
  obtain ⟨ry, rm, rd, rt, _, hy, _⟩ := reads h2 hs
  obtain ⟨n, r, m1, m2, m3⟩ := leave_date (shows_iff.1 hs).2.1 hn hz
  refine ⟨r, ?_, m3⟩
  simp only at m1
  simp only [setMonth, h1, bind, Except.bind]
  by_cases hl : 1 < ((m :: rest).map some).length
  · rw [if_pos hl]
    simp only
    rw [ry]
    simp only
    rw [rnd_small (by omega), arg_map, arg_map_succ rest m 0 c.date hl, m1, rt]
    exact m2
  · rw [if_neg hl, rd]
    simp only [pure, Except.pure]
    rw [ry]
    simp only
    rw [rnd_small (by omega), arg_map]
    rw [getD_short rest m 0 c.date hl] at m1
    rw [m1, rt]
    exact m2

/-- The end of `C68_setFullYear`. -/
theorem setFullYear_aux {z : Option Int} {date : Num} {t : Int} {c : Civil} {k : Clock}
    (hd : enterYear z date = .ok t)
    (ht : t.natAbs < 2 ^ 53) (hz : (off z).natAbs ≤ 86400000) (hs : Shows t c k) {y : Int}
    {rest : List Int}
    (hn : Near ⟨y, rest.getD 0 c.month, rest.getD 1 c.date⟩) :
    ∃ r, setFullYear z date ((y :: rest).map some) = .ok r ∧
      Becomes (off z) ⟨y, rest.getD 0 c.month, rest.getD 1 c.date⟩ k r := by
  obtain ⟨ry, rm, rd, rt, _, hy, _⟩ := reads ht hs
  obtain ⟨n, r, m1, m2, m3⟩ := leave_date (shows_iff.1 hs).2.1 hn hz
  refine ⟨r, ?_, m3⟩
  simp only at m1
  have hm : (if 1 < ((y :: rest).map some).length then .ok (arg ((y :: rest).map some) 1)
      else do return some (← monthFromTime t)) =
      (.ok (some (rest.getD 0 c.month)) : Except Fault Num) := by
    by_cases hl : 1 < ((y :: rest).map some).length
    · rw [if_pos hl, arg_map_succ rest y 0 c.month hl]
    · rw [if_neg hl, getD_short rest y 0 c.month hl, rm]; rfl
  have hdt : (if 2 < ((y :: rest).map some).length then .ok (arg ((y :: rest).map some) 2)
      else do return some (← dateFromTime t)) =
      (.ok (some (rest.getD 1 c.date)) : Except Fault Num) := by
    by_cases hl : 2 < ((y :: rest).map some).length
    · rw [if_pos hl, arg_map_succ rest y 1 c.date hl]
    · rw [if_neg hl, getD_short rest y 1 c.date hl, rd]; rfl
  unfold setFullYear
  rw [hd]
  simp only [bind, Except.bind] at hm hdt ⊢
  rw [hm]
  simp only
  rw [hdt]
  simp only
  rw [arg_map, m1, rt]
  exact m2

/-- **C68 (partial), `setFullYear` and `setUTCFullYear`**, with or without a month and day. -/
theorem C68_setFullYear {z : Option Int} {t : Int} {c : Civil} {k : Clock} (ht : Valid t)
    (hz : (off z).natAbs ≤ 86400000) (hs : Shows (t + off z) c k) {y : Int} {rest : List Int}
    (hn : Near ⟨y, rest.getD 0 c.month, rest.getD 1 c.date⟩) :
    ∃ r, setFullYear z (some t) ((y :: rest).map some) = .ok r ∧
      Becomes (off z) ⟨y, rest.getD 0 c.month, rest.getD 1 c.date⟩ k r := by
  obtain ⟨h1, h2⟩ := enter_valid ht hz
  exact setFullYear_aux (date := some t) h1 h2 hz hs hn

/-- On an invalid date `setFullYear` starts from midnight of 1 January. -/
theorem C68_setFullYear_invalid {z : Option Int} (hz : (off z).natAbs ≤ 86400000) {y : Int}
    {rest : List Int} (hn : Near ⟨y, rest.getD 0 0, rest.getD 1 1⟩) :
    ∃ r, setFullYear z none ((y :: rest).map some) = .ok r ∧
      Becomes (off z) ⟨y, rest.getD 0 0, rest.getD 1 1⟩ ⟨0, 0, 0, 0⟩ r :=
  setFullYear_aux (t := 0) (c := ⟨1970, 0, 1⟩) rfl (by decide) hz
    ⟨0, .epoch, by unfold Clock.Exists; decide, by decide⟩ hn

/-- `new Date(2024, 1, 29)` in a zone one hour ahead. -/
example : Valid 1709161200000 ∧ (off (some 3600000)).natAbs ≤ 86400000 ∧
    Near ⟨2024, 14, [31].getD 0 29⟩ := by
  unfold Near Valid; decide

/-- **C68, the constructor with parts.**  `new Date(year, month, ...)`, with two to seven arguments in
their usual ranges or not: it gives the time value meant in local time, or NaN if it is not valid;
the years 0 to 99 stand for 1900 to 1999. -/
theorem C68_new {tza y m : Int} {rest : List Int} (hz : tza.natAbs ≤ 86400000)
    (hc : Near ⟨if 0 ≤ y ∧ y ≤ 99 then y + 1900 else y, m, rest.getD 0 1⟩)
    (hk : Modest ⟨rest.getD 1 0, rest.getD 2 0, rest.getD 3 0, rest.getD 4 0⟩) :
    ∃ r, newDate tza ((y :: m :: rest).map some) = .ok r ∧
      Becomes tza ⟨if 0 ≤ y ∧ y ≤ 99 then y + 1900 else y, m, rest.getD 0 1⟩
        ⟨rest.getD 1 0, rest.getD 2 0, rest.getD 3 0, rest.getD 4 0⟩ r := by
  obtain ⟨n, m1, m2, m3, m4⟩ := makeDay_total
    ⟨rest.getD 1 0, rest.getD 2 0, rest.getD 3 0, rest.getD 4 0⟩ hc
  have hb := modest_total hk
  have ht := makeTime_eq hk
  obtain ⟨r, h5, h6⟩ := leave_eq (z := some tza)
    (u := n * 86400000 + Clock.total ⟨rest.getD 1 0, rest.getD 2 0, rest.getD 3 0, rest.getD 4 0⟩)
    (by omega) hz
  refine ⟨r, ?_, means_shift m3 h6⟩
  have hcent : century (some y) = some (if 0 ≤ y ∧ y ≤ 99 then y + 1900 else y) := by
    simp only [century]; split <;> rfl
  have a : ∀ i (x : Int), argOr ((y :: m :: rest).map some) (i + 2) (some x) = some (rest.getD i x) := by
    intro i x
    simp [argOr, List.getD_eq_getElem?_getD]
  unfold newDate
  rw [show arg ((y :: m :: rest).map some) 0 = some y from rfl,
    show arg ((y :: m :: rest).map some) 1 = some m from rfl, hcent, a 0, a 1, a 2, a 3, a 4]
  simp only at m1 ht
  simp only [m1, ht, bind, Except.bind]
  simp only [leave, ← m2, bind, Except.bind] at h5
  exact h5

/-- `new Date(99, 13, -3, 25)` two hours ahead of UTC. -/
example : Near ⟨if (0 : Int) ≤ 99 ∧ (99 : Int) ≤ 99 then 99 + 1900 else 99, 13, [-3, 25].getD 0 1⟩ ∧
    newDate 7200000 ([99, 13, -3, 25].map some) = .ok (some 949100400000) := by
  refine ⟨by unfold Near; decide, by decide +kernel⟩

/-- **C68 (partial), `setHours` and `setUTCHours`**, with or without minutes, seconds and
milliseconds, from 1970 on or at full hours.

Missing, here and below: other times before 1970, for which it is false
(`C68_violated_negative`), unless the hours, minutes, seconds and milliseconds are all given. -/
theorem C68_setHours_partial {z : Option Int} {t : Int} {c : Civil} {k : Clock} (ht : Valid t)
    (hz : (off z).natAbs ≤ 86400000) (hs : Shows (t + off z) c k)
    (hh : 0 ≤ t + off z ∨ 3600000 ∣ t + off z) {h : Int} {rest : List Int}
    (hk : Modest ⟨h, rest.getD 0 k.min, rest.getD 1 k.sec, rest.getD 2 k.ms⟩) :
    ∃ r, setHours z (some t) ((h :: rest).map some) = .ok r ∧
      Becomes (off z) c ⟨h, rest.getD 0 k.min, rest.getD 1 k.sec, rest.getD 2 k.ms⟩ r := by
  obtain ⟨h1, h2⟩ := enter_valid ht hz
  obtain ⟨c1, c2, c3, c4⟩ := clock_reads hs hh
  obtain ⟨r, m1, m2⟩ := leave_time hs h2 hk hz
  refine ⟨r, ?_, m2⟩
  simp only [setHours, h1, bind, Except.bind, c2, c3, c4, argOr_map, arg_map]
  exact m1

/-- With all four arguments the time before does not matter. -/
theorem C68_setHours_all {z : Option Int} {t : Int} {c : Civil} {k k' : Clock} (ht : Valid t)
    (hz : (off z).natAbs ≤ 86400000) (hs : Shows (t + off z) c k) (hk : Modest k') :
    ∃ r, setHours z (some t) ([k'.hour, k'.min, k'.sec, k'.ms].map some) = .ok r ∧
      Becomes (off z) c k' r := by
  obtain ⟨h1, h2⟩ := enter_valid ht hz
  obtain ⟨r, m1, m2⟩ := leave_time hs h2 hk hz
  refine ⟨r, ?_, m2⟩
  simp only [setHours, h1, bind, Except.bind]
  exact m1

/-- **C68 (partial), `setMinutes` and `setUTCMinutes`.** -/
theorem C68_setMinutes_partial {z : Option Int} {t : Int} {c : Civil} {k : Clock} (ht : Valid t)
    (hz : (off z).natAbs ≤ 86400000) (hs : Shows (t + off z) c k)
    (hh : 0 ≤ t + off z ∨ 3600000 ∣ t + off z) {m : Int} {rest : List Int}
    (hk : Modest ⟨k.hour, m, rest.getD 0 k.sec, rest.getD 1 k.ms⟩) :
    ∃ r, setMinutes z (some t) ((m :: rest).map some) = .ok r ∧
      Becomes (off z) c ⟨k.hour, m, rest.getD 0 k.sec, rest.getD 1 k.ms⟩ r := by
  obtain ⟨h1, h2⟩ := enter_valid ht hz
  obtain ⟨c1, c2, c3, c4⟩ := clock_reads hs hh
  obtain ⟨r, m1, m2⟩ := leave_time hs h2 hk hz
  refine ⟨r, ?_, m2⟩
  simp only [setMinutes, h1, bind, Except.bind, c1, c3, c4, argOr_map, arg_map]
  exact m1

/-- **C68 (partial), `setSeconds` and `setUTCSeconds`.** -/
theorem C68_setSeconds_partial {z : Option Int} {t : Int} {c : Civil} {k : Clock} (ht : Valid t)
    (hz : (off z).natAbs ≤ 86400000) (hs : Shows (t + off z) c k)
    (hh : 0 ≤ t + off z ∨ 3600000 ∣ t + off z) {s : Int} {rest : List Int}
    (hk : Modest ⟨k.hour, k.min, s, rest.getD 0 k.ms⟩) :
    ∃ r, setSeconds z (some t) ((s :: rest).map some) = .ok r ∧
      Becomes (off z) c ⟨k.hour, k.min, s, rest.getD 0 k.ms⟩ r := by
  obtain ⟨h1, h2⟩ := enter_valid ht hz
  obtain ⟨c1, c2, c3, c4⟩ := clock_reads hs hh
  obtain ⟨r, m1, m2⟩ := leave_time hs h2 hk hz
  refine ⟨r, ?_, m2⟩
  simp only [setSeconds, h1, bind, Except.bind, c1, c2, c4, argOr_map, arg_map]
  exact m1

/-- **C68 (partial), `setMilliseconds`**, and `setUTCMilliseconds` if the minutes and the
milliseconds happen to be the same number.

Missing: `setUTCMilliseconds` otherwise, where it is false (`C68_violated`). -/
theorem C68_setMilliseconds_partial {z : Option Int} {t : Int} {c : Civil} {k : Clock}
    (ht : Valid t) (hz : (off z).natAbs ≤ 86400000) (hs : Shows (t + off z) c k)
    (hh : 0 ≤ t + off z ∨ 3600000 ∣ t + off z) (hu : z = none → k.min = k.ms) {ms : Int}
    (hk : Modest { k with ms := ms }) :
    ∃ r, setMilliseconds z (some t) [some ms] = .ok r ∧ Becomes (off z) c { k with ms := ms } r := by
  obtain ⟨h1, h2⟩ := enter_valid ht hz
  obtain ⟨c1, c2, c3, c4⟩ := clock_reads hs hh
  obtain ⟨r, m1, m2⟩ := leave_time hs h2 hk hz
  refine ⟨r, ?_, m2⟩
  have hm : msMinutes z (t + off z) = k.min := by
    cases z with
    | none => exact c4.trans (hu rfl).symm
    | some _ => exact c2
  simp only [setMilliseconds, h1, bind, Except.bind, hm, c1, c3]
  exact m1

/-- **C68 (violated).**  `setUTCMilliseconds(5)` at 00:01:00.000 gives 00:00:00.005 (the old
milliseconds become the minutes). -/
theorem C68_violated :
    setMilliseconds none (some 60000) [some 5] = .ok (some 5) ∧
    Shows 60000 ⟨1970, 0, 1⟩ ⟨0, 1, 0, 0⟩ ∧
    ¬Becomes 0 ⟨1970, 0, 1⟩ ⟨0, 1, 0, 5⟩ (some 5) := by
  have hs : Shows 60000 ⟨1970, 0, 1⟩ ⟨0, 1, 0, 0⟩ :=
    ⟨0, .epoch, by unfold Clock.Exists; decide, by simp [Clock.total]⟩
  refine ⟨by decide +kernel, hs, ?_⟩
  rintro ⟨t, h1, h2⟩
  have h3 : Means ⟨1970, 0, 1⟩ ⟨0, 1, 0, 5⟩ 60005 := ⟨0, .epoch, by decide⟩
  have h4 := means_unique h1 h3
  rcases h2 with ⟨_, h2⟩ | ⟨_, h2⟩
  · have : (5 : Int) = t := by simpa using h2
    omega
  · simp at h2

/-- **C68 (violated).**  `setUTCHours(23)` one millisecond before 1970 (at 23:59:59.999) should
change nothing, but gives 23:00:00.999. -/
theorem C68_violated_negative :
    setHours none (some (-1)) [some 23] = .ok (some (-3599001)) ∧
    Shows (-1) ⟨1969, 11, 31⟩ ⟨23, 59, 59, 999⟩ := by
  refine ⟨by decide +kernel, -1, ?_, ?_, by decide⟩
  · exact .prev (by unfold Civil.Exists; decide) .epoch
  · unfold Clock.Exists; decide

/-- **C68 (violated).**  In every time zone, a local setter called with NaN (for which an invalid
date is specified) converts NaN to an integer, which is undefined; the UTC setters give NaN. -/
theorem C68_violated_nan {tza t : Int} (ht : Valid t) (hz : tza.natAbs ≤ 86400000) :
    setHours (some tza) (some t) [none] = .error .cast ∧
    setMinutes (some tza) (some t) [none] = .error .cast ∧
    setSeconds (some tza) (some t) [none] = .error .cast ∧
    setMilliseconds (some tza) (some t) [none] = .error .cast ∧
    setHours none (some t) [none] = .ok none ∧ setMinutes none (some t) [none] = .ok none ∧
    setSeconds none (some t) [none] = .ok none ∧
    setMilliseconds none (some t) [none] = .ok none := by
  have h1 := (enter_valid (z := some tza) ht hz).1
  have hs : arg [none] 0 = none := rfl
  have hl : leave (some tza) none = .error .cast := rfl
  have hm : ∀ d h m s ms, (h = none ∨ m = none ∨ s = none ∨ ms = none) →
      makeDate d (makeTime h m s ms) = none := by
    intro d h m s ms hor
    have : makeTime h m s ms = none := by
      unfold makeTime
      rcases hor with e | e | e | e <;> subst e <;> split <;> simp_all
    rw [this]
    unfold makeDate
    cases dmul d (some msPerDay) <;> rfl
  refine ⟨?_, ?_, ?_, ?_, ?_, ?_, ?_, ?_⟩
  · simp only [setHours, h1, bind, Except.bind]
    rw [hm _ _ _ _ _ (Or.inl hs), hl]
  · simp only [setMinutes, h1, bind, Except.bind]
    rw [hm _ _ _ _ _ (Or.inr (Or.inl hs)), hl]
  · simp only [setSeconds, h1, bind, Except.bind]
    rw [hm _ _ _ _ _ (Or.inr (Or.inr (Or.inl hs))), hl]
  · simp only [setMilliseconds, h1, bind, Except.bind]
    rw [hm _ _ _ _ _ (Or.inr (Or.inr (Or.inr hs))), hl]
  · simp only [setHours, enter, bind, Except.bind]
    rw [hm _ _ _ _ _ (Or.inl hs)]; rfl
  · simp only [setMinutes, enter, bind, Except.bind]
    rw [hm _ _ _ _ _ (Or.inr (Or.inl hs))]; rfl
  · simp only [setSeconds, enter, bind, Except.bind]
    rw [hm _ _ _ _ _ (Or.inr (Or.inr (Or.inl hs)))]; rfl
  · simp only [setMilliseconds, enter, bind, Except.bind]
    rw [hm _ _ _ _ _ (Or.inr (Or.inr (Or.inr hs)))]; rfl

/-- The constructor, too: `new Date(NaN, 0)`. -/
theorem C68_violated_new (tza : Int) : newDate tza [none, some 0] = .error .cast := rfl

end Verif.Date
