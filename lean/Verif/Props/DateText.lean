import Verif.Lemmas.DateTextual
import Verif.Props.Date

/-!
# C69: dates as text
-/

namespace Verif.Date

open Spec

/-! ## Parsing -/

/-- **C69, parsing of dates and times.**  Every text of the date time string format with a time denotes the
instant it should: any date and time that exist, years of four digits or of six with a sign, with or
without month, day, seconds and milliseconds, in UTC, with an offset, or in local time; or NaN if this
instant is not a valid time value.

`24:00:00` is missing: see `C69_violated_midnight`. -/
theorem C69_parse_partial {c : Civil} {k : Clock} (hc : c.Exists) (hk : k.Exists)
    (hy : c.year.natAbs ≤ 999999) (long : Bool) (df : DateForm) (tf : TimeForm) {z : Zone}
    (hz : z.Exists) {tza : Int} (ht : tza.natAbs ≤ 86400000) :
    ∃ r, dateParse tza (isoDate long c df ++ (isoTime k tf ++ isoZone z)) = .ok r ∧
      Becomes (z.ahead tza) (df.cut c) (tf.cut k) r := by
  have e : isoDate long c df = dateText (isoYear long c.year) c df := by cases df <;> rfl
  rw [e]
  exact parse_dateTime (yearText_iso hy) hc hk (by omega) df tf hz ht

/-- `2024-02-29T23:59:58+05:30`. -/
example : Civil.Exists ⟨2024, 1, 29⟩ ∧ Clock.Exists ⟨23, 59, 58, 0⟩ ∧ (Zone.plus 5 30).Exists ∧
    dateParse 0 (isoDate false ⟨2024, 1, 29⟩ .ymd ++ (isoTime ⟨23, 59, 58, 0⟩ .hms ++
      isoZone (.plus 5 30))) = .ok (some 1709231398000) := by
  refine ⟨by unfold Civil.Exists; decide, by unfold Clock.Exists; decide,
    by unfold Zone.Exists; decide, by decide +kernel⟩

/-- **C69, parsing of dates.**  Every text of the format without a time denotes the beginning of
the day in UTC. -/
theorem C69_parse_date {c : Civil} (hc : c.Exists) (hy : c.year.natAbs ≤ 999999) (long : Bool)
    (df : DateForm) {tza : Int} (ht : tza.natAbs ≤ 86400000) :
    ∃ r, dateParse tza (isoDate long c df) = .ok r ∧ Becomes 0 (df.cut c) ⟨0, 0, 0, 0⟩ r := by
  have e : isoDate long c df = dateText (isoYear long c.year) c df := by cases df <;> rfl
  rw [e]
  exact parse_dateOnly (yearText_iso hy) hc (by omega) df ht

/-- `-000001-12`. -/
example : Civil.Exists ⟨-1, 11, 1⟩ ∧
    isoDate false ⟨-1, 11, 1⟩ .ym = [45, 48, 48, 48, 48, 48, 49, 45, 49, 50] ∧
    dateParse 3600000 (isoDate false ⟨-1, 11, 1⟩ .ym) = .ok (some (-62169897600000)) := by
  refine ⟨by unfold Civil.Exists; decide, by decide +kernel, by decide +kernel⟩

/-- The format has `24:00:00` for the midnight at the end of a day; the code takes it for
invalid (rjs_date_object_inc.c:945). -/
theorem C69_violated_midnight :
    -- `2000-01-01T24:00Z`
    dateParse 0 [50, 48, 48, 48, 45, 48, 49, 45, 48, 49, 84, 50, 52, 58, 48, 48, 90] = .ok none := by
  decide +kernel

/-- A day 0 is no date, but the code does not check for it (rjs_date_object_inc.c:934-944):
it takes `2000-01-00` for 31 December 1999. -/
theorem C69_violated_day :
    dateParse 0 [50, 48, 48, 48, 45, 48, 49, 45, 48, 48] = .ok (some 946598400000) ∧
    Shows 946598400000 ⟨1999, 11, 31⟩ ⟨0, 0, 0, 0⟩ ∧ ¬Civil.Exists ⟨2000, 0, 0⟩ := by
  refine ⟨by decide +kernel, ?_, by unfold Civil.Exists; decide⟩
  rw [shows_iff]
  refine ⟨?_, by unfold Clock.Exists; decide, by decide⟩
  obtain ⟨c, _, _, _, h, _⟩ := civil_spec (within_of_small (t := 946598400000) (by decide))
    (by decide)
  have e1 := onDay_num h
  have e2 : c = ⟨1999, 11, 31⟩ :=
    num_inj e1.1 (by unfold Civil.Exists; decide) (by rw [e1.2]; decide)
  rw [← e2]; exact h

/-- The digits of a long year overflow an `int` (rjs_date_object_inc.c:559-560): `2147483648` is
undefined behaviour. -/
theorem C69_violated_overflow :
    dateParse 0 [50, 49, 52, 55, 52, 56, 51, 54, 52, 56] = .error .overflow := by decide +kernel

theorem numLoop_over {ds : List Nat} {rest : List Nat} : ∀ {r v : Nat},
    (∀ c ∈ ds, Str.isDigit c = true) → v ≤ 2147483647 → 2147483647 < val v ds →
    numLoop 0 (ds ++ rest) r (v : Int) = .error (.ub .overflow) := by
  induction ds with
  | nil => intro r v _ h1 h2; simp only [val, List.foldl_nil] at h2; omega
  | cons c ds ih =>
    intro r v hd h1 h2
    have hc := hd c (by simp)
    have := digit_le hc
    by_cases hv : v * 10 + (c - 48) ≤ 2147483647
    · rw [List.cons_append, numLoop_step hc hv, if_neg (by omega)]
      exact ih (fun d h => hd d (by simp [h])) hv h2
    · rw [List.cons_append, numLoop, if_pos hc, if_pos (by omega)]

/-- The value of decimal digits. -/
def decValue (ds : List Nat) : Nat := ds.foldl (fun v c => v * 10 + (c - 48)) 0

/-- Exactly which numbers do this: any text which is nothing but the digits of a number that is not
an `int`, in front of anything. -/
theorem C69_violated_overflow_all {ds rest : List Nat} (hd : ∀ c ∈ ds, 48 ≤ c ∧ c ≤ 57)
    (hv : 2147483647 < decValue ds) (tza : Int) : dateParse tza (ds ++ rest) = .error .overflow := by
  have h1 : ∀ c ∈ ds, Str.isDigit c = true := fun c h => isDigit_of (hd c h)
  have h2 := numLoop_over (rest := rest) (r := 0) (v := 0) h1 (by omega) hv
  cases ds with
  | nil => simp [decValue] at hv
  | cons c ds =>
    have hc := hd c (by simp)
    have hn : number 0 (c :: ds ++ rest) = .error (.ub .overflow) := by
      unfold number
      rw [show ((0 : Int)) = ((0 : Nat) : Int) from rfl, h2]
      rfl
    have hp : parseYear (c :: ds ++ rest) = .error (.ub .overflow) := by
      rw [← hn]
      unfold parseYear
      split
      · rename_i h; simp at h; omega
      · rename_i h; simp at h; omega
      · rfl
    have he : eatup (c :: ds ++ rest) = c :: ds ++ rest := by
      have : Str.isWhite c = false := by
        rcases (by omega : c = 48 ∨ c = 49 ∨ c = 50 ∨ c = 51 ∨ c = 52 ∨ c = 53 ∨ c = 54 ∨ c = 55 ∨
          c = 56 ∨ c = 57) with rfl | rfl | rfl | rfl | rfl | rfl | rfl | rfl | rfl | rfl <;> decide
      simp [eatup, this]
    have ha : isAlpha c = false := by
      simp only [isAlpha, Bool.or_eq_false_iff, Bool.and_eq_false_iff, decide_eq_false_iff_not]
      omega
    unfold dateParse dateParseBody
    rw [he]
    simp only [List.cons_append] at hp ⊢
    rw [ha]
    simp only [parseIso, hp, bind, Except.bind, Bool.false_eq_true, if_false]

example : (2147483647 : Nat) < decValue [50, 49, 52, 55, 52, 56, 51, 54, 52, 56] := by decide

/-! ## Printing -/

/-- `toISOString` in terms of the date and the time. -/
theorem toISOString_eq {t : Int} (ht : Valid t) {c : Civil} {k : Clock} (hs : Shows t c k)
    (hh : 0 ≤ t ∨ 3600000 ∣ t) :
    toISOString t = .ok (dateText (fmt 4 c.year) c .ymd ++ (isoTime k .hmsm ++ isoZone .utc)) := by
  obtain ⟨v1, v2⟩ := ht
  obtain ⟨r1, r2, r3, _, ⟨c1, c2, c3, c4⟩, _⟩ := reads (by omega) hs
  obtain ⟨q1, q2, q3, q4⟩ := clock_reads hs hh
  obtain ⟨k1, k2, k3, k4⟩ := (shows_iff.1 hs).2.1
  have := monthLen_bounds c.year c.month
  unfold toISOString
  rw [r1, r2, r3, q1, q2, q3, q4]
  simp only [bind, Except.bind, pure, Except.pure]
  rw [fmt_dec (w := 1) (x := c.month + 1) (by omega) (by omega),
    fmt_dec (w := 1) (x := c.date) (by omega) (by omega),
    fmt_dec (w := 1) (x := k.hour) (by omega) (by omega),
    fmt_dec (w := 1) (x := k.min) (by omega) (by omega),
    fmt_dec (w := 1) (x := k.sec) (by omega) (by omega),
    fmt_dec (w := 2) (x := k.ms) (by omega) (by omega)]
  simp [dateText, isoTime, isoZone]

/-- **C69, the format of `toISOString` (partial).**  For years 0 to 9999 it is that of ECMAScript.

Missing: other years, which the code does not write with a sign and six digits
(`C69_violated_year`); and times before 1970 that are not at a full hour (`C69_violated_before`). -/
theorem C69_format_partial {t : Int} (ht : Valid t) {c : Civil} {k : Clock} (hs : Shows t c k)
    (hh : 0 ≤ t ∨ 3600000 ∣ t) (hy : 0 ≤ c.year ∧ c.year ≤ 9999) :
    toISOString t = .ok (iso c k) := by
  rw [toISOString_eq ht hs hh, fmt_dec (w := 3) hy.1 (by omega)]
  have e : isoYear false c.year = dec 4 c.year.toNat := by
    unfold isoYear
    rw [if_neg (by omega), if_neg (by simp; omega)]
  simp [iso, isoDate, dateText, isoZone, e]

/-- 29 February 2024, 12:34:56.789. -/
example : Valid 1709210096789 ∧ (0 : Int) ≤ 1709210096789 ∧
    toISOString 1709210096789 = .ok (iso ⟨2024, 1, 29⟩ ⟨12, 34, 56, 789⟩) := by
  refine ⟨by unfold Valid; decide, by decide, by decide +kernel⟩

/-- The first moment of the year 10000 is written `10000-01-01T00:00:00.000Z`
(should be `+010000-01-01T00:00:00.000Z`), that of the year -1 `-001-01-01T00:00:00.000Z`
(should be `-000001-01-01T00:00:00.000Z`). -/
theorem C69_violated_year :
    (toISOString 253402300800000 = .ok [49, 48, 48, 48, 48, 45, 48, 49, 45, 48, 49, 84, 48, 48, 58,
      48, 48, 58, 48, 48, 46, 48, 48, 48, 90] ∧
     toISOString 253402300800000 ≠ .ok (iso ⟨10000, 0, 1⟩ ⟨0, 0, 0, 0⟩)) ∧
    (toISOString (-62198755200000) = .ok [45, 48, 48, 49, 45, 48, 49, 45, 48, 49, 84, 48, 48, 58,
      48, 48, 58, 48, 48, 46, 48, 48, 48, 90] ∧
     toISOString (-62198755200000) ≠ .ok (iso ⟨-1, 0, 1⟩ ⟨0, 0, 0, 0⟩)) := by
  decide +kernel

/-- The last millisecond of 1969 is written as one of the first second of its day, and parsed
back as that. -/
theorem C69_violated_before :
    toISOString (-1) = .ok (iso ⟨1969, 11, 31⟩ ⟨0, 0, 0, 999⟩) ∧
    dateParse 0 (iso ⟨1969, 11, 31⟩ ⟨0, 0, 0, 999⟩) = .ok (some (-86399001)) := by
  decide +kernel

/-! ## Round trips -/

theorem becomes_self {t o : Int} {c : Civil} {k : Clock} {r : Option Int} (ht : Valid t)
    (hs : Means c k (t + o)) (h : Becomes o c k r) : r = some t := by
  obtain ⟨u, h1, h2⟩ := h
  have e : u + o = t + o := means_unique h1 hs
  have e : u = t := by omega
  subst e
  rcases h2 with ⟨_, h2⟩ | ⟨h2, _⟩
  · exact h2
  · exact absurd ht h2

/-- **C69, `toISOString` (partial).**  The text is parsed back to the time value, for years of any
length, before and after the year 0, whatever the local time.

Missing: times before 1970 that are not at a full hour (`C69_violated_before`). -/
theorem C69_iso_partial {t : Int} (ht : Valid t) (hh : 0 ≤ t ∨ 3600000 ∣ t) {tza : Int}
    (hz : tza.natAbs ≤ 86400000) :
    ∃ s, toISOString t = .ok s ∧ dateParse tza s = .ok (some t) := by
  obtain ⟨c, hc⟩ := onDay_exists (t / 86400000)
  have hs : Shows t c (clockOf t) := shows_iff.2 ⟨hc, clockOf_exists t, clockOf_total hh⟩
  have v := ht
  obtain ⟨v1, v2⟩ := v
  obtain ⟨_, _, _, _, he, hy, _⟩ := reads (by omega) hs
  obtain ⟨r, h1, h2⟩ := parse_dateTime (z := .utc) (yearText_fmt (y := c.year) (by omega)) he
    (clockOf_exists t) (by omega) .ymd .hmsm (by trivial) hz
  refine ⟨_, toISOString_eq ht hs hh, ?_⟩
  rw [h1, becomes_self (o := 0) ht (by rw [show t + 0 = t by omega]; exact means_of_shows hs) h2]

example : Valid (-8640000000000000) ∧ (3600000 : Int) ∣ -8640000000000000 ∧
    toISOString (-8640000000000000) = .ok [45, 50, 55, 49, 56, 50, 49, 45, 48, 52, 45, 50, 48, 84,
      48, 48, 58, 48, 48, 58, 48, 48, 46, 48, 48, 48, 90] := by
  refine ⟨by unfold Valid; decide, by decide, by decide +kernel⟩

theorem weekDay_lt {t : Int} (ht : t.natAbs < 2 ^ 53) : (weekDay t).toNat < 7 := by
  have := (C43_weekday ht).1
  omega

theorem means_seconds {t : Int} {c : Civil} {k : Clock} (hs : Shows t c k) :
    Means c (seconds k) (t - t % 1000) := by
  obtain ⟨n, h1, h2⟩ := means_of_shows hs
  obtain ⟨_, _, ⟨k1, k2, k3, k4⟩, _⟩ := id hs
  refine ⟨n, h1, ?_⟩
  have e : t % 1000 = k.ms := by
    rw [h2]; unfold Clock.total; omega
  rw [e, h2]
  simp only [seconds, Clock.total]; omega

theorem digitsRev_long : ∀ (w f n : Nat), n < f → 10 ^ w ≤ n → w < (digitsRev f n).length := by
  intro w
  induction w with
  | zero =>
    intro f n h _
    cases f with
    | zero => omega
    | succ f => simp [digitsRev]
  | succ w ih =>
    intro f n h h2
    have h3 : 10 ^ w * 10 ≤ n := by rw [← Nat.pow_succ]; exact h2
    have h4 : 0 < 10 ^ w := Nat.pow_pos (by decide)
    cases f with
    | zero => omega
    | succ f =>
      simp only [digitsRev]
      rw [if_neg (by omega)]
      have := ih f (n / 10) (by omega) (by omega)
      simp only [List.length_cons]; omega

theorem zeros_more {w w' n : Nat} (hw : w ≤ w') (h : 10 ^ w' ≤ n) :
    zeros w (decimal n) = zeros (w' + 1) (decimal n) := by
  have := digitsRev_long w' (n + 1) n (by omega) h
  simp only [zeros, decimal, List.length_reverse]
  rw [show w - (digitsRev (n + 1) n).length = 0 by omega,
    show w' + 1 - (digitsRev (n + 1) n).length = 0 by omega]

theorem year_small {n : Int} {c : Civil} (h : OnDay n c) (hn : n.natAbs ≤ 100000001) :
    c.year.natAbs < 1000000 := by
  have h1 := onDay_num h
  have h2 := cum_in_year (y := c.year) h1.1.1 h1.1.2.1
  have h3 := h1.2
  have h4 := h1.1.2.2
  have h5 := yearLen_bounds c.year
  unfold num at h3
  by_cases ha : 1970 ≤ c.year
  · have := dfy_after ha; omega
  · have := dfy_before (y := c.year) (by omega); omega

theorem fmtYear_eq {y : Int} (h : y.natAbs < 1000000) : fmtYear y = plainYear y := by
  have e : fmt 4 (y.natAbs : Int) = zeros 4 (decimal y.natAbs) := by
    unfold fmt
    rw [if_neg (by omega), Int.natAbs_natCast]
  unfold fmtYear plainYear
  rw [e]
  congr 1
  split
  · exact zeros_dec (w := 3) (by omega)
  · split
    · rw [zeros_more (w' := 4) (by omega) (by omega)]; exact zeros_dec (by omega)
    · rw [zeros_more (w' := 5) (by omega) (by omega)]; exact zeros_dec (by omega)

theorem dayName_eq {w : Int} (h0 : 0 ≤ w) (h : w ≤ 6) :
    weekDayStrings.getD w.toNat [] = text (dayName w) := by
  rcases (by omega : w = 0 ∨ w = 1 ∨ w = 2 ∨ w = 3 ∨ w = 4 ∨ w = 5 ∨ w = 6) with
    rfl | rfl | rfl | rfl | rfl | rfl | rfl <;> decide +kernel

theorem monthName_eq {m : Int} (h0 : 0 ≤ m) (h : m ≤ 11) :
    monthStrings.getD m.toNat [] = text (monthName m) := by
  rcases (by omega : m = 0 ∨ m = 1 ∨ m = 2 ∨ m = 3 ∨ m = 4 ∨ m = 5 ∨ m = 6 ∨ m = 7 ∨ m = 8 ∨ m = 9 ∨
    m = 10 ∨ m = 11) with
    rfl | rfl | rfl | rfl | rfl | rfl | rfl | rfl | rfl | rfl | rfl | rfl <;> decide +kernel

theorem weekDay_eq {t : Int} (ht : t.natAbs < 2 ^ 53) : weekDay t = (t / 86400000 + 4) % 7 := by
  unfold weekDay
  simp only
  rw [adj_mod _ 7 (by omega), (within_of_small ht).day]

/-- **C69, the text of `toUTCString` (partial).**  It is the one of ECMAScript: the name of the weekday (day 0
is a Thursday), the date and the time.

Missing: times before 1970 that are not at a full hour (as `C69_violated_before`). -/
theorem C69_utc_text_partial {t : Int} (ht : Valid t) (hh : 0 ≤ t ∨ 3600000 ∣ t) {c : Civil}
    {k : Clock} (hs : Shows t c k) :
    toUTCString t = .ok (utcText ((t / 86400000 + 4) % 7) c k) := by
  have hk := (shows_iff.1 hs).2.1
  have v := ht
  obtain ⟨v1, v2⟩ := v
  obtain ⟨r1, r2, r3, _, he, hy, _⟩ := reads (by omega) hs
  obtain ⟨q1, q2, q3, q4⟩ := clock_reads hs hh
  obtain ⟨c1, c2, c3, c4⟩ := he
  obtain ⟨k1, k2, k3, k4⟩ := hk
  have := monthLen_bounds c.year c.month
  unfold toUTCString
  rw [r1, r2, r3, q1, q2, q3]
  simp only [bind, Except.bind, pure, Except.pure]
  rw [fmt_dec (w := 1) (x := c.date) (by omega) (by omega),
    fmt_dec (w := 1) (x := k.hour) (by omega) (by omega),
    fmt_dec (w := 1) (x := k.min) (by omega) (by omega),
    fmt_dec (w := 1) (x := k.sec) (by omega) (by omega), weekDay_eq (by omega),
    dayName_eq (by omega) (by omega), monthName_eq c1 c2,
    fmtYear_eq (year_small (shows_iff.1 hs).1 (by omega))]
  have g : text " GMT" = [32, 71, 77, 84] := by decide
  have g1 : text ", " = [44, 32] := by decide
  have g2 : text " " = [32] := by decide
  simp [utcText, clockGmt, g, g1, g2]

/-- **C69, the text of `toString` (partial).**  It is the one of ECMAScript without the name of the time
zone.

Missing: local times before 1970 that are not at a full hour (as `C69_violated_before`). -/
theorem C69_string_text_partial {t tza : Int} (ht : Valid t) (hz : tza.natAbs < 86400000)
    (hh : 0 ≤ t + tza ∨ 3600000 ∣ t + tza) {c : Civil} {k : Clock} (hs : Shows (t + tza) c k) :
    toDateString tza t = .ok (localText (((t + tza) / 86400000 + 4) % 7) c k (decide (0 ≤ tza))
      (tza.natAbs / 3600000) (tza.natAbs / 60000 % 60)) := by
  have hk := (shows_iff.1 hs).2.1
  have v := ht
  obtain ⟨v1, v2⟩ := v
  obtain ⟨r1, r2, r3, _, he, hy, _⟩ := reads (by omega) hs
  obtain ⟨q1, q2, q3, q4⟩ := clock_reads hs hh
  obtain ⟨c1, c2, c3, c4⟩ := he
  obtain ⟨k1, k2, k3, k4⟩ := hk
  have := monthLen_bounds c.year c.month
  have hl : localTime tza t = .ok (t + tza) := by
    unfold localTime i64; rw [if_pos (by omega)]
  have eh : hourFromTime (tza.natAbs : Int) = (tza.natAbs / 3600000 : Nat) := by
    rw [hourFromTime_eq, if_pos (by omega)]; omega
  have em : minFromTime (tza.natAbs : Int) = (tza.natAbs / 60000 % 60 : Nat) := by
    rw [minFromTime_eq, if_pos (by omega)]; omega
  unfold toDateString
  rw [hl]
  simp only [bind, Except.bind, pure, Except.pure]
  rw [r1, r2, r3, q1, q2, q3, eh, em]
  simp only
  rw [fmt_dec (w := 1) (x := c.date) (by omega) (by omega),
    fmt_dec (w := 1) (x := k.hour) (by omega) (by omega),
    fmt_dec (w := 1) (x := k.min) (by omega) (by omega),
    fmt_dec (w := 1) (x := k.sec) (by omega) (by omega),
    fmt_dec (w := 1) (x := ((tza.natAbs / 3600000 : Nat) : Int)) (by omega) (by omega),
    fmt_dec (w := 1) (x := ((tza.natAbs / 60000 % 60 : Nat) : Int)) (by omega) (by omega),
    weekDay_eq (by omega), dayName_eq (by omega) (by omega), monthName_eq c1 c2,
    fmtYear_eq (year_small (shows_iff.1 hs).1 (by omega)), Int.toNat_natCast, Int.toNat_natCast]
  have g : text " GMT" = [32, 71, 77, 84] := by decide
  have g2 : text " " = [32] := by decide
  have g3 : text (if decide (0 ≤ tza) = true then "+" else "-") = [if tza < 0 then 45 else 43] := by
    by_cases h : 0 ≤ tza
    · rw [if_pos (by simpa using h), if_neg (by omega)]; decide
    · rw [if_neg (by simpa using h), if_pos (by omega)]; decide
  simp only [localText, clockGmt, g, g2, g3]
  simp

/-- `Tue Nov 14 2023 17:13:20 GMT-0500`. -/
example : Valid 1700000000000 ∧ (0 : Int) ≤ 1700000000000 + -18000000 ∧
    localText (((1700000000000 + -18000000) / 86400000 + 4) % 7) ⟨2023, 10, 14⟩ ⟨17, 13, 20, 0⟩ false 5 0 =
      text "Tue Nov 14 2023 17:13:20 GMT-0500" ∧
    toDateString (-18000000) 1700000000000 = .ok (text "Tue Nov 14 2023 17:13:20 GMT-0500") := by
  refine ⟨by unfold Valid; decide, by decide, by decide +kernel, by decide +kernel⟩

/-- **C69, `toUTCString` (partial).**  The text is parsed back to the time value in whole seconds.

Missing: times before 1970 that are not at a full hour (as `C69_violated_before`). -/
theorem C69_utc_partial {t : Int} (ht : Valid t) (hh : 0 ≤ t ∨ 3600000 ∣ t) {tza : Int}
    (hz : tza.natAbs ≤ 86400000) :
    ∃ s, toUTCString t = .ok s ∧ dateParse tza s = .ok (some (t - t % 1000)) := by
  obtain ⟨c, hc⟩ := onDay_exists (t / 86400000)
  have hs : Shows t c (clockOf t) := shows_iff.2 ⟨hc, clockOf_exists t, clockOf_total hh⟩
  have hk := clockOf_exists t
  generalize clockOf t = k at hs hk
  have v := ht
  obtain ⟨v1, v2⟩ := v
  obtain ⟨r1, r2, r3, _, he, hy, _⟩ := reads (by omega) hs
  obtain ⟨q1, q2, q3, q4⟩ := clock_reads hs hh
  have hw := weekDay_lt (t := t) (by omega)
  have e : toUTCString t = .ok (weekDayStrings.getD (weekDay t).toNat [] ++ 44 :: 32 ::
      (dec 2 c.date.toNat ++ 32 :: (monthStrings.getD c.month.toNat [] ++ 32 :: (fmtYear c.year ++
      32 :: clockText k [32, 71, 77, 84])))) := by
    obtain ⟨c1, c2, c3, c4⟩ := he
    obtain ⟨k1, k2, k3, k4⟩ := hk
    have := monthLen_bounds c.year c.month
    unfold toUTCString clockText
    rw [r1, r2, r3, q1, q2, q3]
    simp only [bind, Except.bind, pure, Except.pure]
    rw [fmt_dec (w := 1) (x := c.date) (by omega) (by omega),
      fmt_dec (w := 1) (x := k.hour) (by omega) (by omega),
      fmt_dec (w := 1) (x := k.min) (by omega) (by omega),
      fmt_dec (w := 1) (x := k.sec) (by omega) (by omega)]
  refine ⟨_, e, parse_of_body ?_⟩
  have hp : parseText (weekDayStrings.getD (weekDay t).toNat [] ++ 44 :: 32 ::
      (dec 2 c.date.toNat ++ 32 :: (monthStrings.getD c.month.toNat [] ++ 32 :: (fmtYear c.year ++
      32 :: clockText k [32, 71, 77, 84])))) = .ok (parsedOf c (seconds k) 1 0 0 false, []) := by
    rw [parseText_comma hw]
    exact parseComma_eq (yearText_fmtYear (by omega)) he hk
  rw [body_text hw hp (parsedOk_of he (seconds_exists hk) (by omega) (by omega))]
  obtain ⟨r, p1, p2⟩ := parsedTime_zone (tza := tza) (sign := 1) (loc := false) he (by omega)
    (seconds_exists hk) hz
  rw [p1]
  have hm := means_seconds hs
  rw [becomes_self (r := r) (t := t - t % 1000) (o := 0) (by unfold Valid; omega)
    (by rw [Int.add_zero]; exact hm) (by simpa using p2)]

/-- `Thu, 29 Feb 2024 12:34:56 GMT`. -/
example : Valid 1709210096789 ∧ toUTCString 1709210096789 = .ok [84, 104, 117, 44, 32, 50, 57, 32,
    70, 101, 98, 32, 50, 48, 50, 52, 32, 49, 50, 58, 51, 52, 58, 53, 54, 32, 71, 77, 84] ∧
    dateParse 0 [84, 104, 117, 44, 32, 50, 57, 32,
    70, 101, 98, 32, 50, 48, 50, 52, 32, 49, 50, 58, 51, 52, 58, 53, 54, 32, 71, 77, 84] =
    .ok (some 1709210096000) := by
  refine ⟨by unfold Valid; decide, by decide +kernel, by decide +kernel⟩

/-- **C69, `toString` (partial).**  The text is parsed back to the time value in whole seconds, by
an engine in any time zone (`tza'`), for a time zone `tza` ahead or behind UTC by whole minutes.

Missing: local times before 1970 that are not at a full hour (as `C69_violated_before`). -/
theorem C69_string_partial {t tza : Int} (ht : Valid t) (hm : 60000 ∣ tza)
    (hz : tza.natAbs < 86400000) (hh : 0 ≤ t + tza ∨ 3600000 ∣ t + tza) (tza' : Int) :
    ∃ s, toDateString tza t = .ok s ∧ dateParse tza' s = .ok (some (t - t % 1000)) := by
  obtain ⟨c, hc⟩ := onDay_exists ((t + tza) / 86400000)
  have hs : Shows (t + tza) c (clockOf (t + tza)) :=
    shows_iff.2 ⟨hc, clockOf_exists _, clockOf_total hh⟩
  have hk := clockOf_exists (t + tza)
  generalize clockOf (t + tza) = k at hs hk
  have v := ht
  obtain ⟨v1, v2⟩ := v
  obtain ⟨r1, r2, r3, _, he, hy, _⟩ := reads (by omega) hs
  obtain ⟨q1, q2, q3, q4⟩ := clock_reads hs hh
  have hw := weekDay_lt (t := t + tza) (by omega)
  -- the offset
  obtain ⟨oh, hoh⟩ : ∃ oh : Nat, oh = tza.natAbs / 3600000 := ⟨_, rfl⟩
  obtain ⟨om, hom⟩ : ∃ om : Nat, om = tza.natAbs / 60000 % 60 := ⟨_, rfl⟩
  obtain ⟨g, hg⟩ : ∃ g : Nat, g = if tza < 0 then 45 else 43 := ⟨_, rfl⟩
  have eh : hourFromTime (tza.natAbs : Int) = oh := by
    rw [hourFromTime_eq, if_pos (by omega)]; omega
  have em : minFromTime (tza.natAbs : Int) = om := by
    rw [minFromTime_eq, if_pos (by omega)]; omega
  have hg2 : g = 43 ∨ g = 45 := by rw [hg]; split <;> omega
  have hl : localTime tza t = .ok (t + tza) := by
    unfold localTime i64; rw [if_pos (by omega)]
  have e : toDateString tza t = .ok (weekDayStrings.getD (weekDay (t + tza)).toNat [] ++ 32 ::
      (monthStrings.getD c.month.toNat [] ++ 32 :: (dec 2 c.date.toNat ++ 32 :: (fmtYear c.year ++
      32 :: clockText k (32 :: 71 :: 77 :: 84 :: g :: (dec 2 oh ++ dec 2 om)))))) := by
    obtain ⟨c1, c2, c3, c4⟩ := he
    obtain ⟨k1, k2, k3, k4⟩ := hk
    have := monthLen_bounds c.year c.month
    unfold toDateString clockText
    rw [hl]
    simp only [bind, Except.bind, pure, Except.pure]
    rw [r1, r2, r3, q1, q2, q3, eh, em, ← hg]
    simp only
    rw [fmt_dec (w := 1) (x := c.date) (by omega) (by omega),
      fmt_dec (w := 1) (x := k.hour) (by omega) (by omega),
      fmt_dec (w := 1) (x := k.min) (by omega) (by omega),
      fmt_dec (w := 1) (x := k.sec) (by omega) (by omega),
      fmt_dec (w := 1) (x := (oh : Int)) (by omega) (by omega),
      fmt_dec (w := 1) (x := (om : Int)) (by omega) (by omega),
      show ((oh : Nat) : Int).toNat = oh by omega, show ((om : Nat) : Int).toNat = om by omega]
    simp
  refine ⟨_, e, parse_of_body ?_⟩
  have hp := parsePlain_eq (g := g) (oh := oh) (om := om) (yearText_fmtYear (y := c.year) (by omega))
    he hk hg2 (by omega) (by omega)
  rw [← parseText_plain hw he.1 he.2.1] at hp
  rw [body_text hw hp (parsedOk_of he (seconds_exists hk) (by omega) (by omega))]
  obtain ⟨r, p1, p2⟩ := parsedTime_offset (tza := tza') (sign := if g = 43 then 1 else -1)
    (oh := oh) (om := om) (o := tza) he (by omega) (seconds_exists hk) (by omega) (by omega)
    (by omega) (by omega) (by rw [hg]; split <;> simp <;> omega)
  rw [p1]
  have hms := means_seconds hs
  rw [becomes_self (t := t - t % 1000) (o := tza) (by unfold Valid; omega)
    (by rw [show t - t % 1000 + tza = t + tza - (t + tza) % 1000 by omega]; exact hms) p2]

/-- `Thu Feb 29 2024 07:04:56 GMT-0530`. -/
example : Valid 1709210096789 ∧ (60000 : Int) ∣ -19800000 ∧ (0 : Int) ≤ 1709210096789 + -19800000 ∧
    toDateString (-19800000) 1709210096789 = .ok [84, 104, 117, 32, 70, 101, 98, 32, 50, 57, 32,
      50, 48, 50, 52, 32, 48, 55, 58, 48, 52, 58, 53, 54, 32, 71, 77, 84, 45, 48, 53, 51, 48] := by
  refine ⟨by unfold Valid; decide, by decide, by decide, by decide +kernel⟩

end Verif.Date
