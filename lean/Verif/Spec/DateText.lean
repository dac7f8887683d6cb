import Verif.Spec.Date

/-
What C69 means, independently of the code: the date time string format of ECMAScript
(ECMA-262 §21.4.1.32) and what its texts denote.
-/
namespace Verif.Date.Spec

/-- The last `w` decimal digits of a number, as characters. -/
def dec : Nat → Nat → List Nat
  | 0, _ => []
  | w + 1, n => dec w (n / 10) ++ [48 + n % 10]

/-- The year: four digits, or a sign and six digits.  A year of four digits may be written in the
long way too. -/
def isoYear (long : Bool) (y : Int) : List Nat :=
  if y < 0 then 45 :: dec 6 y.natAbs
  else if long ∨ 9999 < y then 43 :: dec 6 y.toNat
  else dec 4 y.toNat

/-- The forms of the date. -/
inductive DateForm where
  | y | ym | ymd
deriving DecidableEq

/-- `YYYY`, `YYYY-MM` or `YYYY-MM-DD`. -/
def isoDate (long : Bool) (c : Civil) : DateForm → List Nat
  | .y => isoYear long c.year
  | .ym => isoYear long c.year ++ 45 :: dec 2 (c.month + 1).toNat
  | .ymd => isoYear long c.year ++ 45 :: (dec 2 (c.month + 1).toNat ++ 45 :: dec 2 c.date.toNat)

/-- The date denoted: parts left out are the first ones. -/
def DateForm.cut (c : Civil) : DateForm → Civil
  | .y => ⟨c.year, 0, 1⟩
  | .ym => ⟨c.year, c.month, 1⟩
  | .ymd => c

/-- The forms of the time. -/
inductive TimeForm where
  | hm | hms | hmsm
deriving DecidableEq

/-- `THH:mm`, `THH:mm:ss` or `THH:mm:ss.sss`. -/
def isoTime (k : Clock) : TimeForm → List Nat
  | .hm => 84 :: (dec 2 k.hour.toNat ++ 58 :: dec 2 k.min.toNat)
  | .hms => 84 :: (dec 2 k.hour.toNat ++ 58 :: (dec 2 k.min.toNat ++ 58 :: dec 2 k.sec.toNat))
  | .hmsm => 84 :: (dec 2 k.hour.toNat ++ 58 :: (dec 2 k.min.toNat ++ 58 :: (dec 2 k.sec.toNat ++
      46 :: dec 3 k.ms.toNat)))

/-- The time denoted: parts left out are zero. -/
def TimeForm.cut (k : Clock) : TimeForm → Clock
  | .hm => ⟨k.hour, k.min, 0, 0⟩
  | .hms => ⟨k.hour, k.min, k.sec, 0⟩
  | .hmsm => k

/-- The time zone: local time, UTC, or ahead of or behind UTC by hours and minutes. -/
inductive Zone where
  | loc | utc | plus (h m : Nat) | minus (h m : Nat)
deriving DecidableEq

/-- Nothing, `Z`, `+HH:mm` or `-HH:mm`. -/
def isoZone : Zone → List Nat
  | .loc => []
  | .utc => [90]
  | .plus h m => 43 :: (dec 2 h ++ 58 :: dec 2 m)
  | .minus h m => 45 :: (dec 2 h ++ 58 :: dec 2 m)

/-- A zone that exists. -/
def Zone.Exists : Zone → Prop
  | .plus h m => h ≤ 23 ∧ m ≤ 59
  | .minus h m => h ≤ 23 ∧ m ≤ 59
  | _ => True

/-- Milliseconds ahead of UTC, where local time is `tza` ahead. -/
def Zone.ahead (tza : Int) : Zone → Int
  | .loc => tza
  | .utc => 0
  | .plus h m => ((h : Int) * 60 + m) * 60000
  | .minus h m => -(((h : Int) * 60 + m) * 60000)

/-- What `toISOString` has to produce (ECMA-262 §21.4.4.36). -/
def iso (c : Civil) (k : Clock) : List Nat := isoDate false c .ymd ++ (isoTime k .hmsm ++ [90])

/-- The names of the days, from Sunday on (ECMA-262, table 62). -/
def dayName (w : Int) : String :=
  if w = 0 then "Sun" else if w = 1 then "Mon" else if w = 2 then "Tue" else if w = 3 then "Wed"
  else if w = 4 then "Thu" else if w = 5 then "Fri" else "Sat"

/-- The names of the months (ECMA-262, table 63). -/
def monthName (m : Int) : String :=
  if m = 0 then "Jan" else if m = 1 then "Feb" else if m = 2 then "Mar" else if m = 3 then "Apr"
  else if m = 4 then "May" else if m = 5 then "Jun" else if m = 6 then "Jul" else if m = 7 then "Aug"
  else if m = 8 then "Sep" else if m = 9 then "Oct" else if m = 10 then "Nov" else "Dec"

/-- The characters of a text. -/
def text (s : String) : List Nat := s.toList.map Char.toNat

/-- The year in the other formats: a sign if it is negative, at least four digits. -/
def plainYear (y : Int) : List Nat :=
  (if y < 0 then [45] else []) ++
    (if y.natAbs < 10000 then dec 4 y.natAbs else if y.natAbs < 100000 then dec 5 y.natAbs
     else dec 6 y.natAbs)

/-- `hh:mm:ss GMT` (`TimeString`). -/
def clockGmt (k : Clock) : List Nat :=
  dec 2 k.hour.toNat ++ [58] ++ dec 2 k.min.toNat ++ [58] ++ dec 2 k.sec.toNat ++ text " GMT"

/-- `Www, dd Mmm yyyy hh:mm:ss GMT` (`ToUTCString`, ECMA-262 §21.4.4.43). -/
def utcText (w : Int) (c : Civil) (k : Clock) : List Nat :=
  text (dayName w) ++ text ", " ++ dec 2 c.date.toNat ++ text " " ++ text (monthName c.month) ++
    text " " ++ plainYear c.year ++ text " " ++ clockGmt k

/-- `Www Mmm dd yyyy hh:mm:ss GMT+hhmm` (`ToDateString`, ECMA-262 §21.4.4.41.4); the name of the time
zone is left out. -/
def localText (w : Int) (c : Civil) (k : Clock) (ahead : Bool) (oh om : Nat) : List Nat :=
  text (dayName w) ++ text " " ++ text (monthName c.month) ++ text " " ++ dec 2 c.date.toNat ++
    text " " ++ plainYear c.year ++ text " " ++ clockGmt k ++ text (if ahead then "+" else "-") ++
    dec 2 oh ++ dec 2 om

end Verif.Date.Spec
