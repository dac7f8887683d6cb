import Verif.Lemmas.DateText

/-!
# Parsing dates
-/

namespace Verif.Date

open Spec

theorem ends_nil : Ends [] := by intro c s h; cases h

theorem ends_cons {c : Nat} {s : List Nat} (h : Str.isDigit c = false) : Ends (c :: s) := by
  intro c' s' e
  simp only [List.cons.injEq] at e
  rw [← e.1]; exact h

/-! ## The arithmetic -/

theorem monthDays_eq {y m : Int} (h0 : 0 ≤ m) (h1 : m ≤ 11) :
    (if m + 1 = 2 then 28 + isLeapYear y else monthDays.getD (m + 1 - 1).toNat 0) = monthLen y m := by
  rw [isLeapYear_eq]
  unfold monthLen
  have e : m = 0 ∨ m = 1 ∨ m = 2 ∨ m = 3 ∨ m = 4 ∨ m = 5 ∨ m = 6 ∨ m = 7 ∨ m = 8 ∨ m = 9 ∨ m = 10 ∨
    m = 11 := by omega
  rcases e with e | e | e | e | e | e | e | e | e | e | e | e <;> subst e <;>
    (try (split <;> rfl)) <;> first | rfl | (simp; split <;> rfl)

/-- The variables after parsing a date, a time and an offset. -/
def parsedOf (c : Civil) (k : Clock) (sign : Int) (oh om : Int) (loc : Bool) : Parsed :=
  { y := c.year, mon := c.month + 1, day := c.date, hour := k.hour, min := k.min, sec := k.sec,
    ms := k.ms, offSign := sign, offHour := oh, offMin := om, isLocal := loc }

theorem parsedOk_of {c : Civil} {k : Clock} {sign oh om : Int} {loc : Bool} (hc : c.Exists)
    (hk : k.Exists) (h1 : oh ≤ 23) (h2 : om ≤ 59) :
    parsedOk (parsedOf c k sign oh om loc) = true := by
  obtain ⟨c1, c2, c3, c4⟩ := hc
  obtain ⟨k1, k2, k3, k4⟩ := hk
  have e := monthDays_eq (y := c.year) c1 c2
  simp only [parsedOk, parsedOf]
  have hd : (if c.month + 1 = 2 then decide (c.date ≤ 28 + isLeapYear c.year)
      else decide (c.date ≤ monthDays.getD (c.month + 1 - 1).toNat 0)) = true := by
    split
    · rename_i h; rw [if_pos h] at e; rw [e]; simpa using c4
    · rename_i h; rw [if_neg h] at e; rw [e]; simpa using c4
  have e1 : decide (1 ≤ c.month + 1) = true := decide_eq_true (by omega)
  have e2 : decide (c.month + 1 ≤ 12) = true := decide_eq_true (by omega)
  have e3 : decide (k.hour ≤ 23) = true := decide_eq_true (by omega)
  have e4 : decide (k.min ≤ 59) = true := decide_eq_true (by omega)
  have e5 : decide (k.sec ≤ 59) = true := decide_eq_true (by omega)
  have e6 : decide (oh ≤ 23) = true := decide_eq_true (by omega)
  have e7 : decide (om ≤ 59) = true := decide_eq_true (by omega)
  have hall : (decide (1 ≤ c.month + 1) && decide (c.month + 1 ≤ 12) &&
      (if c.month + 1 = 2 then decide (c.date ≤ 28 + isLeapYear c.year)
        else decide (c.date ≤ monthDays.getD (c.month + 1 - 1).toNat 0)) &&
      decide (k.hour ≤ 23) && decide (k.min ≤ 59) && decide (k.sec ≤ 59) && decide (oh ≤ 23) &&
      decide (om ≤ 59)) = true := by
    rw [e1, e2, e3, e4, e5, e6, e7, hd]
    rfl
  exact hall

theorem parsed_leave {p : Parsed} {z : Option Int} {tza : Int} {n : Num}
    (h : makeDay (some p.y) (some (p.mon - 1)) (some p.day) = .ok n)
    (ho : p.offHour = 0 ∧ p.offMin = 0)
    (hz : z = if p.isLocal then some tza else none) {r : Num}
    (hl : leave z (makeDate n (makeTime (some p.hour) (some p.min) (some p.sec) (some p.ms))) =
      .ok r) : parsedTime tza p = .ok r := by
  unfold parsedTime
  rw [h]
  simp only [lift, bind, Except.bind]
  rw [ho.1, ho.2]
  simp only [ne_eq, not_true_eq_false, or_self, if_false]
  subst hz
  cases hp : p.isLocal
  · rw [hp] at hl
    simp only [Bool.false_eq_true, if_false, leave, Except.ok.injEq] at hl ⊢
    rw [hl]; rfl
  · rw [hp] at hl
    simp only [if_true, leave, bind, Except.bind] at hl ⊢
    cases hu : utc tza (makeDate n (makeTime (some p.hour) (some p.min) (some p.sec) (some p.ms)))
      with
    | error f => rw [hu] at hl; simp at hl
    | ok v => rw [hu] at hl; exact congrArg _ (by simpa [pure, Except.pure] using hl)

/-- Without an offset. -/
theorem parsedTime_zone {c : Civil} {k : Clock} {tza sign : Int} {loc : Bool} (hc : c.Exists)
    (hy : c.year.natAbs ≤ 289000000) (hk : k.Exists) (ht : tza.natAbs ≤ 86400000) :
    ∃ r, parsedTime tza (parsedOf c k sign 0 0 loc) = .ok r ∧
      Becomes (if loc then tza else 0) c k r := by
  have hz : (off (if loc then some tza else none)).natAbs ≤ 86400000 := by
    cases loc
    · simp [off]
    · simpa [off] using ht
  obtain ⟨n, r, h1, h2, h3⟩ := leave_date (z := if loc then some tza else none) hk
    (near_of_exists hc hy) hz
  refine ⟨r, parsed_leave (z := if loc then some tza else none) (n := n) ?_ ⟨rfl, rfl⟩ rfl ?_, ?_⟩
  · simp only [parsedOf]
    rw [show c.month + 1 - 1 = c.month by omega]; exact h1
  · simp only [parsedOf]
    rw [makeTime_eq (modest_of_exists hk)]; exact h2
  · cases loc <;> simpa [off] using h3

/-- With an offset. -/
theorem parsedTime_offset {c : Civil} {k : Clock} {tza sign oh om o : Int} (hc : c.Exists)
    (hy : c.year.natAbs ≤ 289000000) (hk : k.Exists) (h1 : 0 ≤ oh) (h2 : oh ≤ 23) (h3 : 0 ≤ om)
    (h4 : om ≤ 59) (hs : o = if sign = -1 then -((oh * 60 + om) * 60000) else (oh * 60 + om) * 60000) :
    ∃ r, parsedTime tza (parsedOf c k sign oh om false) = .ok r ∧ Becomes o c k r := by
  by_cases h0 : oh = 0 ∧ om = 0
  · obtain ⟨e1, e2⟩ := h0
    subst e1 e2
    have ho : o = 0 := by rw [hs]; split <;> omega
    subst ho
    obtain ⟨r, p1, p2⟩ := parsedTime_zone (tza := 0) (sign := sign) (loc := false) hc hy hk (by omega)
    refine ⟨r, ?_, by simpa using p2⟩
    rw [← p1]; rfl
  · obtain ⟨n, m1, m2, m3, m4⟩ := makeDay_total k (near_of_exists hc hy)
    have hb := total_range hk
    have e : parsedTime tza (parsedOf c k sign oh om false) =
        .ok (timeClip (dadd (fin (n * 86400000 + k.total)) (some (-o)))) := by
      unfold parsedTime parsedOf
      simp only
      rw [show c.month + 1 - 1 = c.month by omega, m1]
      simp only [lift, bind, Except.bind]
      rw [makeTime_eq (modest_of_exists hk), m2, if_neg (by simp)]
      simp only
      rw [if_pos (by omega)]
      have : (if sign = -1 then -(oh * msPerHour + om * msPerMinute)
          else oh * msPerHour + om * msPerMinute) = o := by
        rw [hs]; unfold msPerHour msPerMinute; split <;> omega
      rw [this]; rfl
    refine ⟨_, e, ?_⟩
    have ho : o.natAbs < 86400000 := by rw [hs]; split <;> omega
    generalize hu : n * 86400000 + k.total = u at *
    have hul : u.natAbs ≤ 9170000000000000000 := by omega
    refine means_shift m3 ?_
    rw [fin_eq (by omega)]
    simp only [dadd]
    rw [show rnd u + -o = rnd u - o by omega]
    have hr : (rnd u).natAbs ≤ u.natAbs + u.natAbs / 2 ^ 52 := by
      rcases rnd_cases u with h | ⟨_, _, h⟩
      · rw [h]; omega
      · exact h
    rcases rnd_cases u with h5 | ⟨h5, h6, h7⟩
    · rw [h5]; exact timeClip_fin (by omega)
    · right
      refine ⟨by unfold Valid; omega, ?_⟩
      rcases timeClip_fin (u := rnd u - o) (by omega) with ⟨hv, _⟩ | ⟨_, hv⟩
      · unfold Valid at hv; omega
      · exact hv

/-! ## The clock -/

theorem parseHour_hm {p : Parsed} {k : Clock} (hk : k.Exists) {rest : List Nat}
    (hr : ∀ s, rest ≠ 58 :: s) :
    parseHour p (dec 2 k.hour.toNat ++ 58 :: (dec 2 k.min.toNat ++ rest)) =
      .ok ({ p with hour := k.hour, min := k.min, sec := 0, ms := 0 }, rest) := by
  obtain ⟨k1, k2, k3, k4⟩ := hk
  unfold parseHour
  rw [number2 (by omega) (by omega)]
  simp only [bind, Except.bind]
  rw [number2 (by omega) (by omega)]
  cases rest with
  | nil => rfl
  | cons c s =>
    by_cases h : c = 58
    · subst h; exact absurd rfl (hr s)
    · simp; rfl

theorem parseHour_hms {p : Parsed} {k : Clock} (hk : k.Exists) {rest : List Nat}
    (hr : ∀ s, rest ≠ 46 :: s) :
    parseHour p (dec 2 k.hour.toNat ++ 58 :: (dec 2 k.min.toNat ++ 58 :: (dec 2 k.sec.toNat ++
        rest))) =
      .ok ({ p with hour := k.hour, min := k.min, sec := k.sec, ms := 0 }, rest) := by
  obtain ⟨k1, k2, k3, k4⟩ := hk
  unfold parseHour
  rw [number2 (by omega) (by omega)]
  simp only [bind, Except.bind]
  rw [number2 (by omega) (by omega)]
  simp only
  rw [number2 (by omega) (by omega)]
  cases rest with
  | nil => rfl
  | cons c s =>
    by_cases h : c = 46
    · subst h; exact absurd rfl (hr s)
    · simp; rfl

theorem parseHour_hmsm {p : Parsed} {k : Clock} (hk : k.Exists) {rest : List Nat} :
    parseHour p (dec 2 k.hour.toNat ++ 58 :: (dec 2 k.min.toNat ++ 58 :: (dec 2 k.sec.toNat ++
        46 :: (dec 3 k.ms.toNat ++ rest)))) =
      .ok ({ p with hour := k.hour, min := k.min, sec := k.sec, ms := k.ms }, rest) := by
  obtain ⟨k1, k2, k3, k4⟩ := hk
  unfold parseHour
  rw [number2 (by omega) (by omega)]
  simp only [bind, Except.bind]
  rw [number2 (by omega) (by omega)]
  simp only
  rw [number2 (by omega) (by omega)]
  simp only
  rw [number3 (by omega) (by omega)]
  rfl

theorem isoZone_head (z : Zone) (c : Nat) (h : c ≠ 90 ∧ c ≠ 43 ∧ c ≠ 45) (s : List Nat) :
    isoZone z ≠ c :: s := by
  obtain ⟨h1, h2, h3⟩ := h
  cases z <;> simp [isoZone] <;> intro e <;> omega

/-- The time of any form, after its `T`. -/
theorem parseHour_form {p : Parsed} {k : Clock} (hk : k.Exists) (tf : TimeForm) (z : Zone) :
    ∃ s, isoTime k tf ++ isoZone z = 84 :: s ∧
      parseHour p s = .ok ({ p with
        hour := (tf.cut k).hour, min := (tf.cut k).min, sec := (tf.cut k).sec, ms := (tf.cut k).ms },
        isoZone z) := by
  cases tf with
  | hm =>
    refine ⟨dec 2 k.hour.toNat ++ 58 :: (dec 2 k.min.toNat ++ isoZone z), by simp [isoTime], ?_⟩
    exact parseHour_hm hk (isoZone_head z 58 (by omega))
  | hms =>
    refine ⟨dec 2 k.hour.toNat ++ 58 :: (dec 2 k.min.toNat ++ 58 :: (dec 2 k.sec.toNat ++
      isoZone z)), by simp [isoTime], ?_⟩
    exact parseHour_hms hk (isoZone_head z 46 (by omega))
  | hmsm =>
    refine ⟨dec 2 k.hour.toNat ++ 58 :: (dec 2 k.min.toNat ++ 58 :: (dec 2 k.sec.toNat ++
      46 :: (dec 3 k.ms.toNat ++ isoZone z))), by simp [isoTime], ?_⟩
    exact parseHour_hmsm hk

/-! ## The ISO format -/

/-- What may follow the date. -/
def AfterDate (rest : List Nat) : Prop := rest = [] ∨ ∃ s, rest = 84 :: s

theorem afterDate_ends {rest : List Nat} (h : AfterDate rest) : Ends rest := by
  rcases h with h | ⟨s, h⟩ <;> subst h
  · exact ends_nil
  · exact ends_cons (by decide)

theorem afterDate_ne {rest : List Nat} (h : AfterDate rest) (s : List Nat) : rest ≠ 45 :: s := by
  rcases h with h | ⟨s, h⟩ <;> subst h <;> simp

theorem parseMonthDay_ym {y m : Int} (h0 : 0 ≤ m) (h1 : m ≤ 11) {rest : List Nat}
    (hr : ∀ s, rest ≠ 45 :: s) :
    parseMonthDay y (45 :: (dec 2 (m + 1).toNat ++ rest)) = .ok ({ y := y, mon := m + 1 }, rest) := by
  unfold parseMonthDay
  simp only
  rw [number2 (by omega) (by omega)]
  simp only [bind, Except.bind]
  rfl

theorem parseMonthDay_ymd {c : Civil} (hc : c.Exists) {rest : List Nat} :
    parseMonthDay c.year (45 :: (dec 2 (c.month + 1).toNat ++ 45 :: (dec 2 c.date.toNat ++ rest))) =
      .ok ({ y := c.year, mon := c.month + 1, day := c.date }, rest) := by
  obtain ⟨c1, c2, c3, c4⟩ := hc
  have := monthLen_bounds c.year c.month
  unfold parseMonthDay
  simp only
  rw [number2 (by omega) (by omega)]
  simp only [bind, Except.bind]
  rw [number2 (by omega) (by omega)]
  rfl

/-- The text of a date whose year is written `ys`. -/
def dateText (ys : List Nat) (c : Civil) : DateForm → List Nat
  | .y => ys
  | .ym => ys ++ 45 :: dec 2 (c.month + 1).toNat
  | .ymd => ys ++ 45 :: (dec 2 (c.month + 1).toNat ++ 45 :: dec 2 c.date.toNat)

theorem parse_date {ys : List Nat} {c : Civil} (hy : YearText ys c.year) (hc : c.Exists)
    (df : DateForm) {rest : List Nat} (hr : AfterDate rest) :
    ∃ s, parseYear (dateText ys c df ++ rest) = .ok (c.year, s) ∧
      parseMonthDay c.year s =
        .ok ({ y := c.year, mon := (df.cut c).month + 1, day := (df.cut c).date }, rest) := by
  cases df with
  | y =>
    refine ⟨rest, hy.read rest (afterDate_ends hr), ?_⟩
    unfold parseMonthDay
    split
    · rename_i s; exact absurd rfl (afterDate_ne hr s)
    · rfl
  | ym =>
    refine ⟨45 :: (dec 2 (c.month + 1).toNat ++ rest), ?_, ?_⟩
    · simp only [dateText]
      rw [List.append_assoc, List.cons_append]
      exact hy.read _ (ends_cons (by decide))
    · exact parseMonthDay_ym hc.1 hc.2.1 (afterDate_ne hr)
  | ymd =>
    refine ⟨45 :: (dec 2 (c.month + 1).toNat ++ 45 :: (dec 2 c.date.toNat ++ rest)), ?_, ?_⟩
    · simp only [dateText]
      rw [List.append_assoc, List.cons_append, List.append_assoc, List.cons_append]
      exact hy.read _ (ends_cons (by decide))
    · exact parseMonthDay_ymd hc

/-- A text whose first character is that of a year goes to the ISO format. -/
theorem body_iso {ys s : List Nat} {y : Int} (hy : YearText ys y) {tza : Int} {p : Parsed}
    (h : parseIso (ys ++ s) = .ok (p, [])) (hp : parsedOk p = true) :
    dateParseBody tza (ys ++ s) = parsedTime tza p := by
  obtain ⟨c, cs, e, hc⟩ := hy.head
  subst e
  have hw : Str.isWhite c = false := by
    rcases hc with h | h | h
    · subst h; decide
    · subst h; decide
    · exact digit_not_white h
  have ha : isAlpha c = false := by
    rcases hc with h | h | h
    · subst h; decide
    · subst h; decide
    · have := digit_le h
      simp [isAlpha]; omega
  unfold dateParseBody
  rw [List.cons_append, eatup_cons hw]
  simp only [ha, Bool.false_eq_true, if_false]
  rw [List.cons_append] at h
  rw [h]
  simp only [bind, Except.bind, eatup, List.dropWhile_nil]
  rw [if_pos hp]

theorem cut_exists {c : Civil} (h : c.Exists) (df : DateForm) : (df.cut c).Exists := by
  obtain ⟨c1, c2, c3, c4⟩ := h
  have h0 := monthLen_bounds c.year c.month
  have h1 := monthLen_bounds c.year 0
  cases df <;> simp only [DateForm.cut, Civil.Exists] <;> omega

theorem cut_year (c : Civil) (df : DateForm) : (df.cut c).year = c.year := by cases df <;> rfl

theorem timeCut_exists {k : Clock} (h : k.Exists) (tf : TimeForm) : (tf.cut k).Exists := by
  obtain ⟨c1, c2, c3, c4⟩ := h
  cases tf <;> simp only [TimeForm.cut, Clock.Exists] <;> omega

theorem dateText_ys (ys : List Nat) (c : Civil) (df : DateForm) (rest : List Nat) :
    ∃ s, dateText ys c df ++ rest = ys ++ s := by
  cases df with
  | y => exact ⟨rest, rfl⟩
  | ym => exact ⟨_, by simp only [dateText]; rw [List.append_assoc]⟩
  | ymd => exact ⟨_, by simp only [dateText]; rw [List.append_assoc]⟩

theorem parse_of_body {tza : Int} {s : List Nat} {r : Num} (h : dateParseBody tza s = .ok r) :
    dateParse tza s = .ok r := by
  unfold dateParse; rw [h]

/-- A date alone, in UTC. -/
theorem parse_dateOnly {ys : List Nat} {c : Civil} (hy : YearText ys c.year) (hc : c.Exists)
    (hb : c.year.natAbs ≤ 289000000) (df : DateForm) {tza : Int} (ht : tza.natAbs ≤ 86400000) :
    ∃ r, dateParse tza (dateText ys c df) = .ok r ∧ Becomes 0 (df.cut c) ⟨0, 0, 0, 0⟩ r := by
  have hk0 : (⟨0, 0, 0, 0⟩ : Clock).Exists := by unfold Clock.Exists; decide
  obtain ⟨s, h1, h2⟩ := parse_date hy hc df (rest := []) (Or.inl rfl)
  rw [List.append_nil] at h1
  have hp : parseIso (dateText ys c df) = .ok (parsedOf (df.cut c) ⟨0, 0, 0, 0⟩ 1 0 0 false, []) := by
    unfold parseIso
    rw [h1]
    simp only [bind, Except.bind]
    rw [h2]
    simp only [parseZone, parsedOf, cut_year]
    rfl
  obtain ⟨r, p1, p2⟩ := parsedTime_zone (sign := 1) (loc := false) (cut_exists hc df)
    (by rw [cut_year]; exact hb) hk0 ht
  obtain ⟨s', e'⟩ := dateText_ys ys c df []
  rw [List.append_nil] at e'
  refine ⟨r, parse_of_body ?_, by simpa using p2⟩
  rw [e'] at hp ⊢
  rw [body_iso hy hp (parsedOk_of (cut_exists hc df) hk0 (by omega) (by omega))]
  exact p1

theorem parseZone_plus {p : Parsed} {b : Bool} {h m : Nat} (hh : h ≤ 23) (hm : m ≤ 59) :
    parseZone p b (43 :: (dec 2 h ++ 58 :: dec 2 m)) =
      .ok ({ p with offSign := 1, offHour := h, offMin := m }, []) := by
  have e1 := number2 (x := h) (rest := 58 :: dec 2 m) (by omega) (by omega)
  have e2 := number2_nil (x := m) (by omega) (by omega)
  rw [show ((h : Nat) : Int).toNat = h by omega] at e1
  rw [show ((m : Nat) : Int).toNat = m by omega] at e2
  unfold parseZone
  simp only [e1, e2, bind, Except.bind]
  rfl

theorem parseZone_minus {p : Parsed} {b : Bool} {h m : Nat} (hh : h ≤ 23) (hm : m ≤ 59) :
    parseZone p b (45 :: (dec 2 h ++ 58 :: dec 2 m)) =
      .ok ({ p with offSign := -1, offHour := h, offMin := m }, []) := by
  have e1 := number2 (x := h) (rest := 58 :: dec 2 m) (by omega) (by omega)
  have e2 := number2_nil (x := m) (by omega) (by omega)
  rw [show ((h : Nat) : Int).toNat = h by omega] at e1
  rw [show ((m : Nat) : Int).toNat = m by omega] at e2
  unfold parseZone
  simp only [e1, e2, bind, Except.bind]
  rfl

/-- A date and a time. -/
theorem parse_dateTime {ys : List Nat} {c : Civil} {k : Clock} (hy : YearText ys c.year)
    (hc : c.Exists) (hk : k.Exists) (hb : c.year.natAbs ≤ 289000000) (df : DateForm)
    (tf : TimeForm) {z : Zone} (hz : z.Exists) {tza : Int} (ht : tza.natAbs ≤ 86400000) :
    ∃ r, dateParse tza (dateText ys c df ++ (isoTime k tf ++ isoZone z)) = .ok r ∧
      Becomes (z.ahead tza) (df.cut c) (tf.cut k) r := by
  obtain ⟨s1, g1, g2⟩ := parseHour_form 
    (p := { y := c.year, mon := (df.cut c).month + 1, day := (df.cut c).date }) hk tf z
  obtain ⟨s, h1, h2⟩ := parse_date hy hc df (rest := isoTime k tf ++ isoZone z) (Or.inr ⟨s1, g1⟩)
  rw [g1] at h2
  have hp : parseIso (dateText ys c df ++ (isoTime k tf ++ isoZone z)) =
      parseZone (parsedOf (df.cut c) (tf.cut k) 1 0 0 false) true (isoZone z) := by
    unfold parseIso
    rw [h1]
    simp only [bind, Except.bind]
    rw [h2]
    simp only
    rw [g2]
    simp only [parsedOf, cut_year]
  have hce := cut_exists hc df
  have hke := timeCut_exists hk tf
  have hyb : (df.cut c).year.natAbs ≤ 289000000 := by rw [cut_year]; exact hb
  obtain ⟨s', e'⟩ := dateText_ys ys c df (isoTime k tf ++ isoZone z)
  rw [e'] at hp ⊢
  cases z with
  | loc =>
    obtain ⟨r, p1, p2⟩ := parsedTime_zone (sign := 1) (loc := true) hce hyb hke ht
    have hq : parseIso (ys ++ s') = .ok (parsedOf (df.cut c) (tf.cut k) 1 0 0 true, []) := by
      rw [hp]; rfl
    refine ⟨r, parse_of_body ?_, by simpa [Zone.ahead] using p2⟩
    rw [body_iso hy hq (parsedOk_of hce hke (by omega) (by omega))]
    exact p1
  | utc =>
    obtain ⟨r, p1, p2⟩ := parsedTime_zone (sign := 1) (loc := false) hce hyb hke ht
    have hq : parseIso (ys ++ s') = .ok (parsedOf (df.cut c) (tf.cut k) 1 0 0 false, []) := by
      rw [hp]; rfl
    refine ⟨r, parse_of_body ?_, by simpa [Zone.ahead] using p2⟩
    rw [body_iso hy hq (parsedOk_of hce hke (by omega) (by omega))]
    exact p1
  | plus h m =>
    obtain ⟨z1, z2⟩ := hz
    obtain ⟨r, p1, p2⟩ := parsedTime_offset (tza := tza) (sign := 1) (oh := h) (om := m)
      (o := ((h : Int) * 60 + m) * 60000) hce hyb hke (by omega) (by omega) (by omega) (by omega)
      (by rw [if_neg (by omega)])
    have hq : parseIso (ys ++ s') = .ok (parsedOf (df.cut c) (tf.cut k) 1 h m false, []) := by
      rw [hp]; simp only [isoZone]; rw [parseZone_plus z1 z2]; rfl
    refine ⟨r, parse_of_body ?_, p2⟩
    rw [body_iso hy hq (parsedOk_of hce hke (by omega) (by omega))]
    exact p1
  | minus h m =>
    obtain ⟨z1, z2⟩ := hz
    obtain ⟨r, p1, p2⟩ := parsedTime_offset (tza := tza) (sign := -1) (oh := h) (om := m)
      (o := -(((h : Int) * 60 + m) * 60000)) hce hyb hke (by omega) (by omega) (by omega) (by omega)
      (by rw [if_pos rfl])
    have hq : parseIso (ys ++ s') = .ok (parsedOf (df.cut c) (tf.cut k) (-1) h m false, []) := by
      rw [hp]; simp only [isoZone]; rw [parseZone_minus z1 z2]; rfl
    refine ⟨r, parse_of_body ?_, p2⟩
    rw [body_iso hy hq (parsedOk_of hce hke (by omega) (by omega))]
    exact p1

end Verif.Date
