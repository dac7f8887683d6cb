/-
Model of the date arithmetic of `/repo/src/lib/rjs_date_object_inc.c`.

Numbers (`RJS_Number`, C `double`).  Every number that reaches these functions has been converted
by `rjs_to_integer_or_infinity` before it is used, so a number is modelled as `some i` (the
integer `i`) or `none` (NaN or an infinity: the code treats them alike everywhere).  Arithmetic on
doubles rounds to nearest, ties to even, to 53 significant bits, and becomes infinite from
`2 ^ 1024` (IEEE 754); it is modelled as such, without assuming that the values are small.

Integers (`int64_t`).  Overflow and the conversion of a double out of range are undefined in C
(C11 6.5 and 6.3.1.4) and are distinct outcomes here (`Fault`).  The results kept in an `int`
(month, day within the year, hour, ...) are small, as the theorems show, and are not cut.

Not modelled: the conversion of the arguments to numbers (which may run user code), reading the
clock, daylight saving time (the code knows none: `local_tza` is a constant).
-/
namespace Verif.Date

/-- What must not happen. -/
inductive Fault where
  /-- Signed overflow (undefined behaviour, C11 6.5). -/
  | overflow
  /-- Conversion of a double out of range to `int64_t` (undefined behaviour, C11 6.3.1.4). -/
  | cast
  /-- A loop of the model ran out of fuel; not a behaviour of the code, and proved impossible. -/
  | fuel
deriving DecidableEq, Repr

instance : DecidableEq (Except Fault (Option Int)) := fun a b =>
  match a, b with
  | .ok x, .ok y => if h : x = y then isTrue (by rw [h]) else isFalse (by intro e; cases e; exact h rfl)
  | .error x, .error y =>
    if h : x = y then isTrue (by rw [h]) else isFalse (by intro e; cases e; exact h rfl)
  | .ok _, .error _ => isFalse (by intro e; cases e)
  | .error _, .ok _ => isFalse (by intro e; cases e)

instance : DecidableEq (Except Fault Int) := fun a b =>
  match a, b with
  | .ok x, .ok y => if h : x = y then isTrue (by rw [h]) else isFalse (by intro e; cases e; exact h rfl)
  | .error x, .error y =>
    if h : x = y then isTrue (by rw [h]) else isFalse (by intro e; cases e; exact h rfl)
  | .ok _, .error _ => isFalse (by intro e; cases e)
  | .error _, .ok _ => isFalse (by intro e; cases e)

/-- A number: `none` is NaN or an infinity. -/
abbrev Num := Option Int

/-! ## Doubles -/

/-- The quotient `n / d` rounded to the nearest integer, ties to even. -/
def rne (n d : Nat) : Nat :=
  if 2 * (n % d) < d then n / d
  else if d < 2 * (n % d) then n / d + 1
  else if n / d % 2 = 0 then n / d else n / d + 1

/-- The largest `k` (up to a bound) such that `n * 2 ^ k / d` has at most 53 bits before the
point. -/
def scale (n d : Nat) : Nat → Nat → Nat
  | 0, k => k
  | f + 1, k => if n * 2 ^ (k + 1) < 2 ^ 53 * d then scale n d f (k + 1) else k

/-- `floor(x / d)` computed in doubles: the quotient is rounded to 53 significant bits (IEEE 754),
then rounded down.  (1074 is the exponent of the least positive double.) -/
def floorDiv (a : Int) (d : Nat) : Int :=
  if 2 ^ 53 * d ≤ a.natAbs then
    let e := (a.natAbs / d).log2 - 52
    let m := rne a.natAbs (d * 2 ^ e) * 2 ^ e
    if 0 ≤ a then (m : Int) else -(m : Int)
  else
    let k := scale a.natAbs d 1074 0
    let m := rne (a.natAbs * 2 ^ k) d
    if 0 ≤ a then ((m / 2 ^ k : Nat) : Int) else -(((m + 2 ^ k - 1) / 2 ^ k : Nat) : Int)

/-- An integer as a double. -/
def rnd (a : Int) : Int := floorDiv a 1

/-- The result of an operation on doubles; from `2 ^ 1024` it is an infinity. -/
def fin (a : Int) : Num := if (rnd a).natAbs < 2 ^ 1024 then some (rnd a) else none

/-- Sum and product of doubles. -/
def dadd : Num → Num → Num
  | some a, some b => fin (a + b)
  | _, _ => none
def dmul : Num → Num → Num
  | some a, some b => fin (a * b)
  | _, _ => none

/-- `(int64_t)x`. -/
def toI64 : Num → Except Fault Int
  | some x => if -(2 ^ 63) ≤ x ∧ x < 2 ^ 63 then .ok x else .error .cast
  | none => .error .cast

/-- The value of an `int64_t` expression. -/
def i64 (x : Int) : Except Fault Int :=
  if -(2 ^ 63) ≤ x ∧ x < 2 ^ 63 then .ok x else .error .overflow

/-! ## Calendar -/

/-- `RJS_MS_PER_DAY` and so on (rjs_date_object_inc.c:34-40). -/
def msPerDay : Int := 86400000
def msPerHour : Int := 3600000
def msPerMinute : Int := 60000
def msPerSecond : Int := 1000

/-- `month_days` (rjs_date_object_inc.c:51-52). -/
def monthDays : List Int := [31, 28, 31, 30, 31, 30, 31, 31, 30, 31, 30, 31]

/-- `month_year_days` (rjs_date_object_inc.c:55-56). -/
def monthYearDays : List Int := [0, 31, 59, 90, 120, 151, 181, 212, 243, 273, 304, 334]

/-- `day` (rjs_date_object_inc.c:90-94): the quotient is computed in doubles. -/
def day (t : Int) : Int := floorDiv (rnd t) 86400000

/-- `time_within_day` (rjs_date_object_inc.c:97-107). -/
def timeWithinDay (t : Int) : Int :=
  let v := t.tmod msPerDay
  if v < 0 then v + msPerDay else v

/-- `days_in_year` (rjs_date_object_inc.c:110-121). -/
def daysInYear (y : Int) : Int :=
  if y.tmod 4 ≠ 0 then 365
  else if y.tmod 100 ≠ 0 then 366
  else if y.tmod 400 ≠ 0 then 365
  else 366

/-- `day_from_year` (rjs_date_object_inc.c:124-128), before the conversion of the result to
`int64_t`; the argument and all intermediate results are doubles. -/
def dayFromYearD (y : Int) : Int :=
  rnd (rnd (rnd (rnd (365 * rnd (y - 1970)) + floorDiv (rnd (y - 1969)) 4)
    - floorDiv (rnd (y - 1901)) 100) + floorDiv (rnd (y - 1601)) 400)

/-- `day_from_year` of an integer year. -/
def dayFromYear (y : Int) : Except Fault Int := toI64 (some (dayFromYearD (rnd y)))

/-- `time_from_year` (rjs_date_object_inc.c:131-135). -/
def timeFromYear (y : Int) : Except Fault Int := do
  let d ← dayFromYear y
  i64 (msPerDay * d)

/-- The first loop of `year_from_time` (rjs_date_object_inc.c:147-154). -/
def yearDown (t : Int) : Nat → Int → Except Fault Int
  | 0, _ => .error .fuel
  | f + 1, y => do
    let yt ← timeFromYear y
    if yt ≤ t then return y else yearDown t f (y - 1)

/-- The second loop of `year_from_time` (rjs_date_object_inc.c:157-164). -/
def yearUp (t : Int) : Nat → Int → Except Fault Int
  | 0, _ => .error .fuel
  | f + 1, y => do
    let yt ← timeFromYear (y + 1)
    if t < yt then return y else yearUp t f (y + 1)

/-- `year_from_time` (rjs_date_object_inc.c:138-168).  The loops get more fuel than they can
use. -/
def yearFromTime (t : Int) : Except Fault Int :=
  let d := day t
  let y := d.tdiv 365 + 1970
  if 0 ≤ d then yearDown t (d.natAbs + 2) y else yearUp t (d.natAbs + 2) (y - 1)

/-- `day_within_year` (rjs_date_object_inc.c:171-175). -/
def dayWithinYear (t : Int) : Except Fault Int := do
  let y ← yearFromTime t
  let d ← dayFromYear y
  return day t - d

/-- `is_leap_year` (rjs_date_object_inc.c:178-184). -/
def isLeapYear (y : Int) : Int := if daysInYear y = 366 then 1 else 0

/-- `in_leap_year` (rjs_date_object_inc.c:187-191). -/
def inLeapYear (t : Int) : Except Fault Int := do
  let y ← yearFromTime t
  return isLeapYear y

/-- `week_day` (rjs_date_object_inc.c:194-204). -/
def weekDay (t : Int) : Int :=
  let v := (day t + 4).tmod 7
  if v < 0 then v + 7 else v

/-- The loop of `month_from_time` (rjs_date_object_inc.c:214-224) over the months `m`, `m + 1`,
... -/
def monthLoop (d leap : Int) : List Int → Int → Int
  | [], _ => 11
  | md :: rest, m => if d < (if 1 < m then md + leap else md) then m - 1 else monthLoop d leap rest (m + 1)

/-- `month_from_time` (rjs_date_object_inc.c:207-225). -/
def monthFromTime (t : Int) : Except Fault Int := do
  let d ← dayWithinYear t
  let leap ← inLeapYear t
  return monthLoop d leap monthYearDays.tail 1

/-- `date_from_time` (rjs_date_object_inc.c:228-242). -/
def dateFromTime (t : Int) : Except Fault Int := do
  let d ← dayWithinYear t
  let month ← monthFromTime t
  let leap ← inLeapYear t
  let r := d - monthYearDays.getD month.toNat 0 + 1
  return if 1 < month then r - leap else r

/-- `hour_from_time` (rjs_date_object_inc.c:245-255). -/
def hourFromTime (t : Int) : Int :=
  let v := (t.tdiv msPerHour).tmod 24
  if v < 0 then v + 24 else v

/-- `min_from_time` (rjs_date_object_inc.c:258-268). -/
def minFromTime (t : Int) : Int :=
  let v := (t.tdiv msPerMinute).tmod 60
  if v < 0 then v + 60 else v

/-- `sec_from_time` (rjs_date_object_inc.c:271-281). -/
def secFromTime (t : Int) : Int :=
  let v := (t.tdiv msPerSecond).tmod 60
  if v < 0 then v + 60 else v

/-- `ms_from_time` (rjs_date_object_inc.c:284-294). -/
def msFromTime (t : Int) : Int :=
  let v := t.tmod msPerSecond
  if v < 0 then v + msPerSecond else v

/-! ## Time values -/

/-- `time_clip` (rjs_date_object_inc.c:394-415). -/
def timeClip : Num → Num
  | some n => if 8640000000000000 < n.natAbs then none else some n
  | none => none

/-- `make_time` (rjs_date_object_inc.c:418-446). -/
def makeTime (h m s ms : Num) : Num :=
  match h, m, s, ms with
  | some h, some m, some s, some ms =>
    dadd (dadd (dadd (fin (h * msPerHour)) (fin (m * msPerMinute))) (fin (s * msPerSecond)))
      (some ms)
  | _, _, _, _ => none

/-- `make_day` (rjs_date_object_inc.c:449-494). -/
def makeDay (y m d : Num) : Except Fault Num :=
  match y, m, d with
  | some y, some m, some d =>
    match fin (y + floorDiv m 12) with
    | none => .ok none
    | some y => do
      let mi ← toI64 (some m)
      let mon := if mi.tmod 12 < 0 then mi.tmod 12 + 12 else mi.tmod 12
      let yi ← toI64 (some y)
      let t ← timeFromYear yi
      let leap ← inLeapYear t
      let yd := monthYearDays.getD mon.toNat 0 + (if 1 < mon then leap else 0)
      return dadd (dadd (some (rnd (day t + yd))) (some d)) (some (-1))
  | _, _, _ => .ok none

/-- `make_date` (rjs_date_object_inc.c:497-512). -/
def makeDate (d t : Num) : Num := dadd (dmul d (some msPerDay)) t

/-! ## `Date.UTC` and the UTC getters -/

/-- The `i`-th argument; a missing one is `undefined`, NaN as a number. -/
def arg (args : List Num) (i : Nat) : Num := args.getD i none

/-- The `i`-th argument, or `x` if there are not so many (`argc <= i`). -/
def argOr (args : List Num) (i : Nat) (x : Num) : Num := args.getD i x

/-- Years from 0 to 99 count from 1900 (rjs_date_object_inc.c:1193-1199, 1067-1073). -/
def century : Num → Num
  | some y => if 0 ≤ y ∧ y ≤ 99 then some (y + 1900) else some y
  | none => none

/-- `Date.UTC` (rjs_date_object_inc.c:1133-1209). -/
def dateUTC (args : List Num) : Except Fault Num := do
  let d ← makeDay (century (arg args 0)) (argOr args 1 (some 0)) (argOr args 2 (some 1))
  let t := makeTime (argOr args 3 (some 0)) (argOr args 4 (some 0)) (argOr args 5 (some 0))
    (argOr args 6 (some 0))
  return timeClip (makeDate d t)

/-- `getUTCFullYear`, `getUTCMonth`, `getUTCDate`, `getUTCHours`, `getUTCMinutes`,
`getUTCSeconds`, `getUTCMilliseconds` in this order, of a valid time value
(rjs_date_object_inc.c:1396-1531). -/
def utcFields (t : Int) : Except Fault (List Int) := do
  let y ← yearFromTime t
  let m ← monthFromTime t
  let d ← dateFromTime t
  return [y, m, d, hourFromTime t, minFromTime t, secFromTime t, msFromTime t]

/-! ## Local time -/

/-- `local_time` (rjs_date_object_inc.c:317-321); `tza` is the result of `local_tza`
(rjs_date_object_inc.c:308-314). -/
def localTime (tza t : Int) : Except Fault Int := i64 (t + tza)

/-- `utc` (rjs_date_object_inc.c:324-328).  The parameter is an `int64_t`. -/
def utc (tza : Int) (u : Num) : Except Fault Num := do
  let x ← toI64 u
  let r ← i64 (x - tza)
  return some (rnd r)

/-- The constructor with two or more arguments (rjs_date_object_inc.c:1015-1078). -/
def newDate (tza : Int) (args : List Num) : Except Fault Num := do
  let d ← makeDay (century (arg args 0)) (arg args 1) (argOr args 2 (some 1))
  let t := makeTime (argOr args 3 (some 0)) (argOr args 4 (some 0)) (argOr args 5 (some 0))
    (argOr args 6 (some 0))
  let u ← utc tza (makeDate d t)
  return timeClip u

/-! ## Setters

Every setter exists for UTC and for local time; the text is the same but for `local_time` and
`utc`.  `z` is `none` for the UTC setter and `some tza` for the local one.  The result is the new
time value, which is stored and returned. -/

/-- The time the setter works on. -/
def enter (z : Option Int) (t : Int) : Except Fault Int :=
  match z with
  | none => .ok t
  | some tza => localTime tza t

/-- The new time value. -/
def leave (z : Option Int) (u : Num) : Except Fault Num :=
  match z with
  | none => .ok (timeClip u)
  | some tza => do return timeClip (← utc tza u)

/-- `setDate` and `setUTCDate` (rjs_date_object_inc.c:1534-1561, 1848-1874). -/
def setDate (z : Option Int) (date : Num) (args : List Num) : Except Fault Num :=
  match date with
  | none => .ok none
  | some t0 => do
    let t ← enter z t0
    let y ← yearFromTime t
    let m ← monthFromTime t
    let d ← makeDay (some (rnd y)) (some m) (arg args 0)
    leave z (makeDate d (some (timeWithinDay t)))

/-- The time `setFullYear` works on; an invalid date counts as time 0 (rjs_date_object_inc.c:1579-1583,
1892-1894). -/
def enterYear (z : Option Int) : Num → Except Fault Int
  | none => .ok 0
  | some t0 => enter z t0

/-- `setFullYear` and `setUTCFullYear` (rjs_date_object_inc.c:1564-1607, 1877-1918). -/
def setFullYear (z : Option Int) (date : Num) (args : List Num) : Except Fault Num := do
  let t ← enterYear z date
  let m ← (if 1 < args.length then .ok (arg args 1) else do return some (← monthFromTime t))
  let dt ← (if 2 < args.length then .ok (arg args 2) else do return some (← dateFromTime t))
  let d ← makeDay (arg args 0) m dt
  leave z (makeDate d (some (timeWithinDay t)))

/-- `setMonth` and `setUTCMonth` (rjs_date_object_inc.c:1745-1782, 2050-2085). -/
def setMonth (z : Option Int) (date : Num) (args : List Num) : Except Fault Num :=
  match date with
  | none => .ok none
  | some t0 => do
    let t ← enter z t0
    let dt ← (if 1 < args.length then .ok (arg args 1) else do return some (← dateFromTime t))
    let y ← yearFromTime t
    let d ← makeDay (some (rnd y)) (arg args 0) dt
    leave z (makeDate d (some (timeWithinDay t)))

/-- `setHours` and `setUTCHours` (rjs_date_object_inc.c:1610-1663, 1921-1972). -/
def setHours (z : Option Int) (date : Num) (args : List Num) : Except Fault Num :=
  match date with
  | none => .ok none
  | some t0 => do
    let t ← enter z t0
    let m := argOr args 1 (some (minFromTime t))
    let s := argOr args 2 (some (secFromTime t))
    let ms := argOr args 3 (some (msFromTime t))
    leave z (makeDate (some (rnd (day t))) (makeTime (arg args 0) m s ms))

/-- `setMinutes` and `setUTCMinutes` (rjs_date_object_inc.c:1697-1742, 2004-2047). -/
def setMinutes (z : Option Int) (date : Num) (args : List Num) : Except Fault Num :=
  match date with
  | none => .ok none
  | some t0 => do
    let t ← enter z t0
    let s := argOr args 1 (some (secFromTime t))
    let ms := argOr args 2 (some (msFromTime t))
    leave z (makeDate (some (rnd (day t))) (makeTime (some (hourFromTime t)) (arg args 0) s ms))

/-- `setSeconds` and `setUTCSeconds` (rjs_date_object_inc.c:1785-1822, 2088-2123). -/
def setSeconds (z : Option Int) (date : Num) (args : List Num) : Except Fault Num :=
  match date with
  | none => .ok none
  | some t0 => do
    let t ← enter z t0
    let ms := argOr args 1 (some (msFromTime t))
    leave z (makeDate (some (rnd (day t)))
      (makeTime (some (hourFromTime t)) (some (minFromTime t)) (arg args 0) ms))

/-- The minutes that `setMilliseconds` (rjs_date_object_inc.c:1686) and `setUTCMilliseconds`
(rjs_date_object_inc.c:1993) pass to `make_time`: the UTC setter passes the milliseconds. -/
def msMinutes (z : Option Int) (t : Int) : Int :=
  match z with
  | none => msFromTime t
  | some _ => minFromTime t

/-- `setMilliseconds` (rjs_date_object_inc.c:1666-1694) and `setUTCMilliseconds`
(rjs_date_object_inc.c:1975-2001). -/
def setMilliseconds (z : Option Int) (date : Num) (args : List Num) : Except Fault Num :=
  match date with
  | none => .ok none
  | some t0 => do
    let t ← enter z t0
    leave z (makeDate (some (rnd (day t)))
      (makeTime (some (hourFromTime t)) (some (msMinutes z t)) (some (secFromTime t))
        (arg args 0)))

/-- `setTime` (rjs_date_object_inc.c:1825-1845). -/
def setTime (args : List Num) : Num := timeClip (arg args 0)

end Verif.Date
