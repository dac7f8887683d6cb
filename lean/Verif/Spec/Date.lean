/-
What C43 and C68 mean, independently of the code: the proleptic Gregorian calendar, given by its
leap year rule, the lengths of its months and the successor of a date, anchored at the one fact
that day 0 is 1 January 1970.  No formula for the number of days of a year is used.
-/
namespace Verif.Date.Spec

/-- The leap years. -/
def Leap (y : Int) : Prop := (y % 4 = 0 ∧ y % 100 ≠ 0) ∨ y % 400 = 0

instance (y : Int) : Decidable (Leap y) := by unfold Leap; infer_instance

/-- A date; months count from 0 (as in ECMAScript), days from 1. -/
structure Civil where
  year : Int
  month : Int
  date : Int
deriving DecidableEq, Repr

/-- The number of days of a month. -/
def monthLen (y m : Int) : Int :=
  if m = 1 then (if Leap y then 29 else 28)
  else if m = 3 ∨ m = 5 ∨ m = 8 ∨ m = 10 then 30
  else 31

/-- A date that exists. -/
def Civil.Exists (c : Civil) : Prop :=
  0 ≤ c.month ∧ c.month ≤ 11 ∧ 1 ≤ c.date ∧ c.date ≤ monthLen c.year c.month

/-- The day after. -/
def Civil.next (c : Civil) : Civil :=
  if c.date < monthLen c.year c.month then { c with date := c.date + 1 }
  else if c.month < 11 then { c with month := c.month + 1, date := 1 }
  else ⟨c.year + 1, 0, 1⟩

/-- Day `n` (counted from 1 January 1970, before or after it) is the date `c`. -/
inductive OnDay : Int → Civil → Prop
  | epoch : OnDay 0 ⟨1970, 0, 1⟩
  | next {n c} : OnDay n c → OnDay (n + 1) c.next
  | prev {n c} : c.Exists → OnDay (n + 1) c.next → OnDay n c

/-- The time of the day. -/
structure Clock where
  hour : Int
  min : Int
  sec : Int
  ms : Int
deriving DecidableEq, Repr

/-- A time of the day that exists. -/
def Clock.Exists (k : Clock) : Prop :=
  (0 ≤ k.hour ∧ k.hour ≤ 23) ∧ (0 ≤ k.min ∧ k.min ≤ 59) ∧ (0 ≤ k.sec ∧ k.sec ≤ 59) ∧
    (0 ≤ k.ms ∧ k.ms ≤ 999)

/-- Milliseconds since midnight. -/
def Clock.total (k : Clock) : Int := ((k.hour * 60 + k.min) * 60 + k.sec) * 1000 + k.ms

/-- The time value `t` (milliseconds since the beginning of 1970) is the date `c` at the time
`k`. -/
def Shows (t : Int) (c : Civil) (k : Clock) : Prop :=
  ∃ n, OnDay n c ∧ k.Exists ∧ t = n * 86400000 + k.total

/-- The time value meant by a year, a month, a day and a time, none of which need be in its usual
range: months beyond December run into the next years, days beyond the end of the month into
the next months, and so on. -/
def Means (c : Civil) (k : Clock) (t : Int) : Prop :=
  ∃ n, OnDay n ⟨c.year + c.month / 12, c.month % 12, 1⟩ ∧
    t = (n + c.date - 1) * 86400000 + k.total

/-- A valid time value (ECMA-262 §21.4.1.1). -/
def Valid (t : Int) : Prop := -8640000000000000 ≤ t ∧ t ≤ 8640000000000000

/-- The time value given to a date object whose parts are meant in local time, `o` milliseconds
ahead of UTC: the one meant, if it is valid. -/
def Becomes (o : Int) (c : Civil) (k : Clock) (r : Option Int) : Prop :=
  ∃ t, Means c k (t + o) ∧ ((Valid t ∧ r = some t) ∨ (¬Valid t ∧ r = none))

/-- The offset of the time zone; `none` stands for UTC. -/
def off : Option Int → Int
  | none => 0
  | some tza => tza

/-- Restriction of some theorems: hours, minutes, seconds and milliseconds that are not astronomically
large (for hours: about 71000 years). -/
def Modest (k : Clock) : Prop :=
  (k.hour * 3600000).natAbs < 2 ^ 51 ∧ (k.min * 60000).natAbs < 2 ^ 51 ∧
    (k.sec * 1000).natAbs < 2 ^ 51 ∧ k.ms.natAbs < 2 ^ 51

/-- Restriction of some theorems: years up to 289 million and days up to 400 million (any
month). -/
def Near (c : Civil) : Prop :=
  (c.year + c.month / 12).natAbs ≤ 289000000 ∧ c.month.natAbs < 2 ^ 53 ∧ c.date.natAbs ≤ 400000000

end Verif.Date.Spec
