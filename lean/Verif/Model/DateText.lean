import Verif.Model.Date
import Verif.Model.Str

/-
Model of the conversions between dates and text of `/repo/src/lib/rjs_date_object_inc.c`.

A text is the list of its characters (the input functions of `/repo/src/lib/rjs_input.c` join
surrogate pairs, which no date contains).  `int` variables of the parser may overflow, which is
undefined behaviour and a distinct outcome.
-/
namespace Verif.Date

/-- `week_day_strings` (rjs_date_object_inc.c:43-44). -/
def weekDayStrings : List (List Nat) :=
  [[83, 117, 110], [77, 111, 110], [84, 117, 101], [87, 101, 100], [84, 104, 117], [70, 114, 105],
   [83, 97, 116]]

/-- `month_strings` (rjs_date_object_inc.c:47-48). -/
def monthStrings : List (List Nat) :=
  [[74, 97, 110], [70, 101, 98], [77, 97, 114], [65, 112, 114], [77, 97, 121], [74, 117, 110],
   [74, 117, 108], [65, 117, 103], [83, 101, 112], [79, 99, 116], [78, 111, 118], [68, 101, 99]]

/-! ## `snprintf` -/

/-- The decimal digits of a number, the last first. -/
def digitsRev : Nat → Nat → List Nat
  | 0, _ => []
  | f + 1, n => (48 + n % 10) :: (if n / 10 = 0 then [] else digitsRev f (n / 10))

/-- `%d` of a number that is not negative. -/
def decimal (n : Nat) : List Nat := (digitsRev (n + 1) n).reverse

/-- Zeros in front. -/
def zeros (w : Nat) (s : List Nat) : List Nat := List.replicate (w - s.length) 48 ++ s

/-- `%0wd`: the sign counts. -/
def fmt (w : Nat) (x : Int) : List Nat :=
  if x < 0 then 45 :: zeros (w - 1) (decimal x.natAbs) else zeros w (decimal x.natAbs)

/-! ## Output -/

/-- `toISOString` of a valid date (rjs_date_object_inc.c:2161-2190):
`"%04d-%02d-%02dT%02d:%02d:%02d.%03dZ"`. -/
def toISOString (t : Int) : Except Fault (List Nat) := do
  let y ← yearFromTime t
  let m ← monthFromTime t
  let d ← dateFromTime t
  return fmt 4 y ++ 45 :: (fmt 2 (m + 1) ++ 45 :: (fmt 2 d ++ 84 :: (fmt 2 (hourFromTime t) ++
    58 :: (fmt 2 (minFromTime t) ++ 58 :: (fmt 2 (secFromTime t) ++ 46 ::
    (fmt 3 (msFromTime t) ++ [90]))))))

/-- `"%s%04d"` of the sign and the absolute value of the year (rjs_date_object_inc.c:364-365). -/
def fmtYear (y : Int) : List Nat := (if y < 0 then [45] else []) ++ fmt 4 (y.natAbs : Int)

/-- `to_date_string` of a valid date, used by `toString` (rjs_date_object_inc.c:331-377):
`"%s %s %02d %s%04d %02d:%02d:%02d GMT%s%02d%02d"`. -/
def toDateString (tza t0 : Int) : Except Fault (List Nat) := do
  let t ← localTime tza t0
  let m ← monthFromTime t
  let d ← dateFromTime t
  let y ← yearFromTime t
  return weekDayStrings.getD (weekDay t).toNat [] ++ 32 :: (monthStrings.getD m.toNat [] ++ 32 ::
    (fmt 2 d ++ 32 :: (fmtYear y ++ 32 :: (fmt 2 (hourFromTime t) ++ 58 :: (fmt 2 (minFromTime t) ++
    58 :: (fmt 2 (secFromTime t) ++ [32, 71, 77, 84] ++ (if tza < 0 then 45 else 43) ::
    (fmt 2 (hourFromTime tza.natAbs) ++ fmt 2 (minFromTime tza.natAbs))))))))

/-- `toUTCString` of a valid date (rjs_date_object_inc.c:2277-2313):
`"%s, %02d %s %s%04d %02d:%02d:%02d GMT"`. -/
def toUTCString (t : Int) : Except Fault (List Nat) := do
  let y ← yearFromTime t
  let m ← monthFromTime t
  let d ← dateFromTime t
  return weekDayStrings.getD (weekDay t).toNat [] ++ 44 :: 32 :: (fmt 2 d ++ 32 ::
    (monthStrings.getD m.toNat [] ++ 32 :: (fmtYear y ++ 32 :: (fmt 2 (hourFromTime t) ++ 58 ::
    (fmt 2 (minFromTime t) ++ 58 :: (fmt 2 (secFromTime t) ++ [32, 71, 77, 84]))))))

/-! ## `date_parse` -/

/-- How parsing ends early. -/
inductive Stop where
  /-- Undefined behaviour. -/
  | ub (f : Fault)
  /-- `goto end`: the result is NaN. -/
  | invalid
deriving DecidableEq, Repr

/-- `rjs_uchar_is_alpha` (`/repo/src/lib/include/rjs_uchar.h`:83-87). -/
def isAlpha (c : Nat) : Bool := (97 ≤ c && c ≤ 122) || (65 ≤ c && c ≤ 90)

/-- `tolower`, as `strcasecmp` does it. -/
def lower (c : Nat) : Nat := if 65 ≤ c && c ≤ 90 then c + 32 else c

/-- `eatup_space` followed by putting the character back (rjs_date_object_inc.c:515-527). -/
def eatup (s : List Nat) : List Nat := s.dropWhile Str.isWhite

/-- `parse_space` (rjs_date_object_inc.c:530-542). -/
def parseSpace : List Nat → Except Stop (List Nat)
  | c :: s => if Str.isWhite c then .ok (eatup s) else .error .invalid
  | [] => .error .invalid

/-- The loop of `parse_date_number` (rjs_date_object_inc.c:552-566); `len` is 0 if the number of
digits is not limited (the code passes -1).  `r` digits have been read, with the value `v`. -/
def numLoop (len : Nat) : List Nat → Nat → Int → Except Stop (Nat × Int × List Nat)
  | [], r, v => .ok (r, v, [])
  | c :: cs, r, v =>
    if Str.isDigit c then
      if 2 ^ 31 - 1 < v * 10 + ((c : Int) - 48) then .error (.ub .overflow)
      else if 0 < len ∧ len ≤ r + 1 then .ok (r + 1, v * 10 + ((c : Int) - 48), cs)
      else numLoop len cs (r + 1) (v * 10 + ((c : Int) - 48))
    else .ok (r, v, c :: cs)

/-- `parse_date_number` (rjs_date_object_inc.c:545-572). -/
def number (len : Nat) (s : List Nat) : Except Stop (Int × List Nat) := do
  let (r, v, s) ← numLoop len s 0 0
  if r = 0 then .error .invalid else return (v, s)

/-- `parse_year` (rjs_date_object_inc.c:575-606). -/
def parseYear (s : List Nat) : Except Stop (Int × List Nat) :=
  match s with
  | 45 :: s => do
    let (y, s) ← number 0 (eatup s)
    if y = 0 then .error .invalid else return (-y, s)
  | 43 :: s => number 0 (eatup s)
  | s => number 0 s

/-- Three letters (rjs_date_object_inc.c:617-623, 644-650). -/
def letters3 : List Nat → Except Stop (List Nat × List Nat)
  | a :: b :: c :: s =>
    if isAlpha a && isAlpha b && isAlpha c then .ok ([a, b, c], s) else .error .invalid
  | _ => .error .invalid

/-- The position of a name in a table, upper and lower case alike. -/
def lookup (names : List (List Nat)) (b : List Nat) : Option Nat :=
  names.findIdx? (fun n => n.map lower == b.map lower)

/-- `parse_week_day` (rjs_date_object_inc.c:609-633). -/
def parseWeekDay (s : List Nat) : Except Stop (List Nat) := do
  let (b, s) ← letters3 s
  match lookup weekDayStrings b with
  | some _ => return s
  | none => .error .invalid

/-- `parse_month` (rjs_date_object_inc.c:636-660). -/
def parseMonth (s : List Nat) : Except Stop (Int × List Nat) := do
  let (b, s) ← letters3 s
  match lookup monthStrings b with
  | some i => return ((i : Int) + 1, s)
  | none => .error .invalid

/-- The variables of `date_parse` (rjs_date_object_inc.c:725-738). -/
structure Parsed where
  y : Int
  mon : Int := 1
  day : Int := 1
  hour : Int := 0
  min : Int := 0
  sec : Int := 0
  ms : Int := 0
  offSign : Int := 1
  offHour : Int := 0
  offMin : Int := 0
  isLocal : Bool := false

/-- `parse_hour` (rjs_date_object_inc.c:663-700). -/
def parseHour (p : Parsed) (s : List Nat) : Except Stop (Parsed × List Nat) := do
  let (h, s) ← number 2 s
  match s with
  | 58 :: s =>
    let (mi, s) ← number 2 s
    match s with
    | 58 :: s =>
      let (se, s) ← number 2 s
      match s with
      | 46 :: s =>
        let (ms, s) ← number 3 s
        return ({ p with hour := h, min := mi, sec := se, ms := ms }, s)
      | s => return ({ p with hour := h, min := mi, sec := se, ms := 0 }, s)
    | s => return ({ p with hour := h, min := mi, sec := 0, ms := 0 }, s)
  | s => return ({ p with hour := h, min := 0, sec := 0, ms := 0 }, s)

/-- The time and `GMT` after the year in the textual formats (rjs_date_object_inc.c:780-805,
824-849): the time if there is white space and then a digit, then white space, then perhaps `GMT` and white space. -/
def parseTail (p : Parsed) (s : List Nat) : Except Stop (Parsed × List Nat) := do
  let hasSpace := match s with
    | c :: _ => Str.isWhite c
    | [] => false
  let s := eatup s
  let (p, s) ← (match s with
    | c :: _ =>
      if Str.isDigit c && hasSpace then do
        let (p, s) ← parseHour p s
        return (p, eatup s)
      else return (p, s)
    | [] => return (p, s))
  match s with
  | g :: s' =>
    if g = 103 ∨ g = 71 then
      match s' with
      | m :: t :: s' =>
        if (m = 109 ∨ m = 77) ∧ (t = 116 ∨ t = 84) then return (p, eatup s') else .error .invalid
      | _ => .error .invalid
    else return (p, s)
  | [] => return (p, s)

/-- `parse_tz_name` (rjs_date_object_inc.c:703-717). -/
def parseTzName : List Nat → Except Stop (List Nat)
  | [] => .error .invalid
  | c :: s => if c = 41 then .ok s else parseTzName s

/-- `Sun, 01 Jan 1970 ...`, after the comma (rjs_date_object_inc.c:762-805). -/
def parseComma (s : List Nat) : Except Stop (Parsed × List Nat) := do
  let (d, s) ← number 2 (eatup s)
  let s ← parseSpace s
  let (m, s) ← parseMonth s
  let s ← parseSpace s
  let (y, s) ← parseYear s
  parseTail { y := y, mon := m, day := d } s

/-- The offset in the textual format (rjs_date_object_inc.c:851-864). -/
def parseOffset (p : Parsed) (s : List Nat) : Except Stop (Parsed × List Nat) :=
  match s with
  | c :: s' =>
    if c = 43 ∨ c = 45 then do
      let (oh, s) ← number 2 s'
      let (om, s) ← number 2 s
      return ({ p with offSign := if c = 43 then 1 else -1, offHour := oh, offMin := om }, s)
    else return (p, s)
  | [] => return (p, s)

/-- `Sun Jan 01 1970 ...`, after the space (rjs_date_object_inc.c:807-871). -/
def parsePlain (s : List Nat) : Except Stop (Parsed × List Nat) := do
  let (m, s) ← parseMonth s
  let s ← parseSpace s
  let (d, s) ← number 2 s
  let s ← parseSpace s
  let (y, s) ← parseYear s
  let (p, s) ← parseTail { y := y, mon := m, day := d } s
  let (p, s) ← parseOffset p s
  match s with
  | 40 :: s => return (p, ← parseTzName s)
  | s => return (p, s)

/-- The textual formats (rjs_date_object_inc.c:746-874). -/
def parseText (s : List Nat) : Except Stop (Parsed × List Nat) := do
  let s ← parseWeekDay s
  let hasSpace := match s with
    | c :: _ => Str.isWhite c
    | [] => false
  match eatup s with
  | 44 :: s => parseComma s
  | s => if hasSpace then parsePlain s else .error .invalid

/-- Month and day of the ISO format (rjs_date_object_inc.c:883-895). -/
def parseMonthDay (y : Int) (s : List Nat) : Except Stop (Parsed × List Nat) :=
  match s with
  | 45 :: s => do
    let (m, s) ← number 2 s
    match s with
    | 45 :: s =>
      let (d, s) ← number 2 s
      return ({ y := y, mon := m, day := d }, s)
    | s => return ({ y := y, mon := m }, s)
  | s => return ({ y := y }, s)

/-- The zone of the ISO format (rjs_date_object_inc.c:906-927). -/
def parseZone (p : Parsed) (hasTime : Bool) (s : List Nat) : Except Stop (Parsed × List Nat) :=
  match s with
  | [] => return ({ p with isLocal := hasTime }, s)
  | c :: s' =>
    if c = 90 then return (p, s')
    else if c = 43 ∨ c = 45 then do
      let (oh, s) ← number 2 s'
      match s with
      | 58 :: s =>
        let (om, s) ← number 2 s
        return ({ p with offSign := if c = 43 then 1 else -1, offHour := oh, offMin := om }, s)
      | _ => .error .invalid
    else return ({ p with isLocal := hasTime }, s)

/-- The ISO format (rjs_date_object_inc.c:876-928). -/
def parseIso (s : List Nat) : Except Stop (Parsed × List Nat) := do
  let (y, s) ← parseYear s
  let (p, s) ← parseMonthDay y s
  match s with
  | 84 :: s =>
    let (p, s) ← parseHour p s
    parseZone p true s
  | s => parseZone p false s

/-- The checks (rjs_date_object_inc.c:934-948). -/
def parsedOk (p : Parsed) : Bool :=
  1 ≤ p.mon && p.mon ≤ 12 &&
  (if p.mon = 2 then p.day ≤ 28 + isLeapYear p.y else p.day ≤ monthDays.getD (p.mon - 1).toNat 0) &&
  p.hour ≤ 23 && p.min ≤ 59 && p.sec ≤ 59 && p.offHour ≤ 23 && p.offMin ≤ 59

/-- Undefined behaviour of the arithmetic, as an outcome of the parser. -/
def lift {α} : Except Fault α → Except Stop α
  | .ok a => .ok a
  | .error f => .error (.ub f)

/-- The time value (rjs_date_object_inc.c:950-965). -/
def parsedTime (tza : Int) (p : Parsed) : Except Stop Num := do
  let d ← lift (makeDay (some p.y) (some (p.mon - 1)) (some p.day))
  let tv := makeDate d (makeTime (some p.hour) (some p.min) (some p.sec) (some p.ms))
  let tv ← (if p.isLocal then lift (utc tza tv) else .ok tv)
  let off := p.offHour * msPerHour + p.offMin * msPerMinute
  let tv := if p.offHour ≠ 0 ∨ p.offMin ≠ 0 then
      dadd tv (some (-(if p.offSign = -1 then -off else off)))
    else tv
  return timeClip tv

/-- `date_parse` up to `end` (rjs_date_object_inc.c:720-968). -/
def dateParseBody (tza : Int) (s : List Nat) : Except Stop Num := do
  match eatup s with
  | [] => .error .invalid
  | c :: s =>
    let (p, s) ← (if isAlpha c then parseText (c :: s) else parseIso (c :: s))
    match eatup s with
    | [] => if parsedOk p then parsedTime tza p else .error .invalid
    | _ :: _ => .error .invalid

/-- `date_parse` (rjs_date_object_inc.c:720-975). -/
def dateParse (tza : Int) (s : List Nat) : Except Fault Num :=
  match dateParseBody tza s with
  | .ok n => .ok n
  | .error .invalid => .ok none
  | .error (.ub f) => .error f

end Verif.Date
