import Verif.Lemmas.DateParse

/-!
# The textual formats of dates
-/

namespace Verif.Date

open Spec

theorem parseWeekDay_name {w : Nat} (h : w < 7) (rest : List Nat) :
    parseWeekDay (weekDayStrings.getD w [] ++ rest) = .ok rest := by
  have e : w = 0 ∨ w = 1 ∨ w = 2 ∨ w = 3 ∨ w = 4 ∨ w = 5 ∨ w = 6 := by omega
  rcases e with e | e | e | e | e | e | e <;> subst e <;> rfl

theorem parseMonth_name {m : Int} (h0 : 0 ≤ m) (h1 : m ≤ 11) (rest : List Nat) :
    parseMonth (monthStrings.getD m.toNat [] ++ rest) = .ok (m + 1, rest) := by
  have e : m = 0 ∨ m = 1 ∨ m = 2 ∨ m = 3 ∨ m = 4 ∨ m = 5 ∨ m = 6 ∨ m = 7 ∨ m = 8 ∨ m = 9 ∨ m = 10 ∨
    m = 11 := by omega
  rcases e with e | e | e | e | e | e | e | e | e | e | e | e <;> subst e <;> rfl

/-- The first letter of the name of a month. -/
theorem month_head {m : Int} (h0 : 0 ≤ m) (h1 : m ≤ 11) (rest : List Nat) :
    ∃ c s, monthStrings.getD m.toNat [] ++ rest = c :: s ∧ Str.isWhite c = false ∧ c ≠ 44 := by
  have e : m = 0 ∨ m = 1 ∨ m = 2 ∨ m = 3 ∨ m = 4 ∨ m = 5 ∨ m = 6 ∨ m = 7 ∨ m = 8 ∨ m = 9 ∨ m = 10 ∨
    m = 11 := by omega
  rcases e with e | e | e | e | e | e | e | e | e | e | e | e <;> subst e <;>
    exact ⟨_, _, rfl, by decide, by decide⟩

theorem week_head {w : Nat} (h : w < 7) (rest : List Nat) :
    ∃ c s, weekDayStrings.getD w [] ++ rest = c :: s ∧ Str.isWhite c = false ∧ isAlpha c = true := by
  have e : w = 0 ∨ w = 1 ∨ w = 2 ∨ w = 3 ∨ w = 4 ∨ w = 5 ∨ w = 6 := by omega
  rcases e with e | e | e | e | e | e | e <;> subst e <;> exact ⟨_, _, rfl, by decide, by decide⟩

theorem parseSpace_cons {s : List Nat} (h : eatup s = s) : parseSpace (32 :: s) = .ok s := by
  simp only [parseSpace]
  rw [if_pos (by decide), h]

theorem eatup_space (s : List Nat) : eatup (32 :: s) = eatup s := by
  simp only [eatup]
  rw [List.dropWhile_cons_of_pos (by decide)]

theorem eatup_dec (w n : Nat) (rest : List Nat) :
    eatup (dec (w + 1) n ++ rest) = dec (w + 1) n ++ rest := by
  cases hd : dec (w + 1) n with
  | nil =>
    have := dec_length (w + 1) n
    rw [hd] at this
    simp at this
  | cons c s =>
    exact eatup_cons (digit_not_white (dec_digit (w + 1) n c (by rw [hd]; simp)))

theorem dec_head (w n : Nat) (rest : List Nat) :
    ∃ c s, dec (w + 1) n ++ rest = c :: s ∧ Str.isDigit c = true := by
  cases hd : dec (w + 1) n with
  | nil =>
    have := dec_length (w + 1) n
    rw [hd] at this
    simp at this
  | cons c s => exact ⟨c, s ++ rest, rfl, dec_digit (w + 1) n c (by rw [hd]; simp)⟩

theorem eatup_year {ys : List Nat} {y : Int} (h : YearText ys y) (rest : List Nat) :
    eatup (ys ++ rest) = ys ++ rest := by
  obtain ⟨c, s, e, hc⟩ := h.head
  subst e
  refine eatup_cons ?_
  rcases hc with h | h | h
  · subst h; decide
  · subst h; decide
  · exact digit_not_white h

/-- The clock as printed. -/
def clockText (k : Clock) (rest : List Nat) : List Nat :=
  dec 2 k.hour.toNat ++ 58 :: (dec 2 k.min.toNat ++ 58 :: (dec 2 k.sec.toNat ++ rest))

theorem parseTail_clock {p : Parsed} {k : Clock} (hk : k.Exists) {rest : List Nat}
    (hr : eatup rest = rest) :
    parseTail p (32 :: clockText k (32 :: 71 :: 77 :: 84 :: rest)) =
      .ok ({ p with hour := k.hour, min := k.min, sec := k.sec, ms := 0 }, rest) := by
  unfold parseTail
  have hh := parseHour_hms (p := p) hk (rest := 32 :: 71 :: 77 :: 84 :: rest) (by intro s; simp)
  rw [eatup_space]
  unfold clockText
  rw [eatup_dec]
  obtain ⟨c, s, e, hc⟩ := dec_head 1 k.hour.toNat (58 :: (dec 2 k.min.toNat ++ 58 ::
    (dec 2 k.sec.toNat ++ 32 :: 71 :: 77 :: 84 :: rest)))
  rw [e] at hh ⊢
  simp only [hc, show Str.isWhite 32 = true from by decide, Bool.and_true, if_true, hh, bind,
    Except.bind, pure, Except.pure]
  rw [eatup_space, eatup_cons (by decide)]
  simp [hr]

/-- The end of `toString`. -/
theorem parseOffset_some {p : Parsed} {c oh om : Nat} (hc : c = 43 ∨ c = 45) (h1 : oh ≤ 23)
    (h2 : om ≤ 59) :
    parseOffset p (c :: (dec 2 oh ++ dec 2 om)) =
      .ok ({ p with offSign := if c = 43 then 1 else -1, offHour := oh, offMin := om }, []) := by
  have e1 := number2 (x := oh) (rest := dec 2 om) (by omega) (by omega)
  have e2 := number2_nil (x := om) (by omega) (by omega)
  rw [show ((oh : Nat) : Int).toNat = oh by omega] at e1
  rw [show ((om : Nat) : Int).toNat = om by omega] at e2
  unfold parseOffset
  simp only [if_pos hc, e1, e2, bind, Except.bind]
  rfl

/-- Cut to whole seconds. -/
def seconds (k : Clock) : Clock := { k with ms := 0 }

theorem seconds_exists {k : Clock} (h : k.Exists) : (seconds k).Exists := by
  obtain ⟨h1, h2, h3, h4⟩ := h
  exact ⟨h1, h2, h3, by simp [seconds]⟩

/-- The text after the weekday of `toString`. -/
theorem parsePlain_eq {ys : List Nat} {c : Civil} {k : Clock} (hy : YearText ys c.year)
    (hc : c.Exists) (hk : k.Exists) {g oh om : Nat} (hg : g = 43 ∨ g = 45) (h1 : oh ≤ 23)
    (h2 : om ≤ 59) :
    parsePlain (monthStrings.getD c.month.toNat [] ++ 32 :: (dec 2 c.date.toNat ++ 32 :: (ys ++
      32 :: clockText k (32 :: 71 :: 77 :: 84 :: g :: (dec 2 oh ++ dec 2 om))))) =
    .ok (parsedOf c (seconds k) (if g = 43 then 1 else -1) oh om false, []) := by
  obtain ⟨c1, c2, c3, c4⟩ := hc
  have := monthLen_bounds c.year c.month
  unfold parsePlain
  rw [parseMonth_name c1 c2]
  simp only [bind, Except.bind]
  rw [parseSpace_cons (eatup_dec 1 _ _)]
  simp only
  rw [number2 (by omega) (by omega)]
  simp only
  rw [parseSpace_cons (eatup_year hy _)]
  simp only
  rw [hy.read _ (ends_cons (by decide))]
  simp only
  rw [parseTail_clock hk (eatup_cons (by rcases hg with h | h <;> subst h <;> decide))]
  simp only
  rw [parseOffset_some hg h1 h2]
  rfl

/-- The text after the weekday and the comma of `toUTCString`. -/
theorem parseComma_eq {ys : List Nat} {c : Civil} {k : Clock} (hy : YearText ys c.year)
    (hc : c.Exists) (hk : k.Exists) :
    parseComma (32 :: (dec 2 c.date.toNat ++ 32 :: (monthStrings.getD c.month.toNat [] ++
      32 :: (ys ++ 32 :: clockText k [32, 71, 77, 84])))) =
    .ok (parsedOf c (seconds k) 1 0 0 false, []) := by
  obtain ⟨c1, c2, c3, c4⟩ := hc
  have := monthLen_bounds c.year c.month
  unfold parseComma
  rw [eatup_space, eatup_dec, number2 (by omega) (by omega)]
  simp only [bind, Except.bind]
  have hm : ∀ rest, eatup (monthStrings.getD c.month.toNat [] ++ rest) =
      monthStrings.getD c.month.toNat [] ++ rest := by
    intro rest
    obtain ⟨a, s, e, ha, _⟩ := month_head c1 c2 rest
    rw [e, eatup_cons ha]
  rw [parseSpace_cons (hm _)]
  simp only
  rw [parseMonth_name c1 c2]
  simp only
  rw [parseSpace_cons (eatup_year hy _)]
  simp only
  rw [hy.read _ (ends_cons (by decide))]
  simp only
  rw [parseTail_clock hk (by rfl)]
  rfl

/-- A text which begins with the name of a weekday goes to the textual formats. -/
theorem body_text {w : Nat} (h : w < 7) {s : List Nat} {tza : Int} {p : Parsed}
    (hp : parseText (weekDayStrings.getD w [] ++ s) = .ok (p, [])) (ho : parsedOk p = true) :
    dateParseBody tza (weekDayStrings.getD w [] ++ s) = parsedTime tza p := by
  obtain ⟨c, cs, e, hw, ha⟩ := week_head h s
  rw [e] at hp ⊢
  unfold dateParseBody
  rw [eatup_cons hw]
  simp only [ha, if_true, hp, bind, Except.bind, eatup, List.dropWhile_nil]
  rw [if_pos ho]

theorem parseText_comma {w : Nat} (h : w < 7) (s : List Nat) :
    parseText (weekDayStrings.getD w [] ++ 44 :: s) = parseComma s := by
  unfold parseText
  rw [parseWeekDay_name h]
  simp only [bind, Except.bind]
  rw [eatup_cons (by decide)]
  rfl

theorem parseText_plain {w : Nat} (h : w < 7) {m : Int} (h0 : 0 ≤ m) (h1 : m ≤ 11) (s : List Nat) :
    parseText (weekDayStrings.getD w [] ++ 32 :: (monthStrings.getD m.toNat [] ++ s)) =
      parsePlain (monthStrings.getD m.toNat [] ++ s) := by
  unfold parseText
  rw [parseWeekDay_name h]
  simp only [bind, Except.bind]
  rw [eatup_space]
  obtain ⟨c, s', e, hw, hn⟩ := month_head h0 h1 s
  rw [e, eatup_cons hw]
  split
  · rename_i he
    simp only [List.cons.injEq] at he
    exact absurd he.1 hn
  · rw [if_pos (by decide)]

end Verif.Date
