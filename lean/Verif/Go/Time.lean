import Verif.Go.Basic
/-!
# Model of the parts of Go's package `time` that bpass uses

`time.Parse` with the layout "2006-01-02 15:04:05" (cli.go:13, 88), `Time.UnixNano` (main.go:234) and `Time.Format(time.RFC3339)`
(commands.go:701, 1140), as in Go 1.17 to 1.22: the algorithms of `Date`, `daysSinceEpoch`, `absDate`, `parse` and `appendInt` in
src/time/time.go and src/time/format.go. The offset of the local time zone is an argument. `uint64` is modelled by natural numbers:
nothing overflows for the years 0 to 9999 that can be typed.
-/
namespace Verif.Time
open Verif

/-- a date and a time of day -/
structure Stamp where
  year : Int
  month : Nat
  day : Nat
  hour : Nat
  min : Nat
  sec : Nat
  deriving Repr, DecidableEq

/-- `isLeap` -/
def isLeap (y : Int) : Bool := y % 4 = 0 && (y % 100 ≠ 0 || y % 400 = 0)

/-- `daysBefore` -/
def daysBefore : Nat → Nat
  | 0 => 0 | 1 => 31 | 2 => 59 | 3 => 90 | 4 => 120 | 5 => 151 | 6 => 181 | 7 => 212 | 8 => 243 | 9 => 273 | 10 => 304 | 11 => 334
  | _ => 365

/-- `daysIn` -/
def daysIn (m : Nat) (y : Int) : Nat :=
  if m = 2 ∧ isLeap y = true then 29 else daysBefore m - daysBefore (m - 1)

/-- `-absoluteZeroYear` -/
def zeroYear : Int := 292277022399

/-- `daysSinceEpoch` -/
def daysSinceEpoch (y : Int) : Nat :=
  let y := (y + zeroYear).toNat
  let n := y / 400
  let y := y - 400 * n
  let d := 146097 * n
  let n := y / 100
  let y := y - 100 * n
  let d := d + 36524 * n
  let n := y / 4
  let y := y - 4 * n
  let d := d + 1461 * n
  d + 365 * y

/-- `-(absoluteToInternal + internalToUnix) / secondsPerDay`: the day 1970-01-01 counted from year `-zeroYear` -/
def unixDays : Int := 730692556 * 146097 + 719162

/-- seconds since 1970, as `Date` computes them -/
def unix (t : Stamp) : Int :=
  let d := daysSinceEpoch t.year + daysBefore (t.month - 1) + (if isLeap t.year ∧ 3 ≤ t.month then 1 else 0) + (t.day - 1)
  let abs := d * 86400 + (t.hour * 3600 + t.min * 60 + t.sec)
  (abs : Int) - unixDays * 86400

/-- the month and day of the day `yday` of a year, from 0 (the end of `absDate`) -/
def monthDay (leap : Bool) (yday : Nat) : Nat × Nat :=
  if leap = true ∧ yday = 59 then (2, 29)
  else
    let day := if leap = true ∧ yday > 59 then yday - 1 else yday
    let month := day / 31
    if day ≥ daysBefore (month + 1) then (month + 2, day - daysBefore (month + 1) + 1)
    else (month + 1, day - daysBefore month + 1)

/-- year and day of the year of a day (`absDate`) -/
def yearDay (d : Nat) : Int × Nat :=
  let n := d / 146097
  let y := 400 * n
  let d := d - 146097 * n
  let n := d / 36524
  let n := n - n / 4
  let y := y + 100 * n
  let d := d - 36524 * n
  let n := d / 1461
  let y := y + 4 * n
  let d := d - 1461 * n
  let n := d / 365
  let n := n - n / 4
  ((y + n : Nat) - zeroYear, d - 365 * n)

/-- the date of a number of seconds since 1970 (`absDate`, `absClock`) -/
def civil (s : Int) : Stamp :=
  let abs := (s + unixDays * 86400).toNat
  let (y, yday) := yearDay (abs / 86400)
  let (m, d) := monthDay (isLeap y) yday
  let r := abs % 86400
  { year := y, month := m, day := d, hour := r / 3600, min := r % 3600 / 60, sec := r % 60 }

/-! ## format.go -/

def digit (n : Nat) : UInt8 := UInt8.ofNat (48 + n % 10)

/-- `appendInt` with width 2 -/
def two (n : Nat) : Str := [digit (n / 10), digit n]
/-- `appendInt` with width 4, for years from 0 to 9999 -/
def four (n : Nat) : Str := [digit (n / 1000), digit (n / 100), digit (n / 10), digit n]

/-- `Z07:00` -/
def zoneText (offset : Int) : Str :=
  if offset = 0 then b! "Z"
  else
    let zone := (offset.natAbs / 60)
    (if offset.tdiv 60 < 0 then b! "-" else b! "+") ++ two (zone / 60) ++ b! ":" ++ two (zone % 60)

/-- `Format(time.RFC3339)` of `time.Unix(0, ns)`; the local zone is `offset` seconds east -/
def rfc3339 (offset : Int) (ns : Int) : Str :=
  let t := civil (ns / 1000000000 + offset)
  four t.year.toNat ++ b! "-" ++ two t.month ++ b! "-" ++ two t.day ++ b! "T" ++ two t.hour ++ b! ":" ++ two t.min ++ b! ":" ++
    two t.sec ++ zoneText offset

def isDigit (c : UInt8) : Bool := 48 ≤ c && c ≤ 57
def digitVal (c : UInt8) : Nat := c.toNat - 48

/-- `getnum` -/
def getnum (fixed : Bool) : Str → Option (Nat × Str)
  | [] => none
  | [a] => if isDigit a && !fixed then some (digitVal a, []) else none
  | a :: b :: s =>
    if isDigit a = false then none
    else if isDigit b then some (digitVal a * 10 + digitVal b, s)
    else if fixed then none
    else some (digitVal a, b :: s)

/-- the year: four digits -/
def getYear : Str → Option (Nat × Str)
  | a :: b :: c :: d :: s =>
    if isDigit a && isDigit b && isDigit c && isDigit d then
      some (digitVal a * 1000 + digitVal b * 100 + digitVal c * 10 + digitVal d, s)
    else none
  | _ => none

/-- `skip` of a prefix without blanks -/
def skipChar (c : UInt8) : Str → Option Str
  | a :: s => if a = c then some s else none
  | [] => none

/-- `skip(value, " ")` -/
def skipBlank : Str → Option Str
  | [] => some []
  | a :: s => if a = 32 then some ((a :: s).dropWhile (· = 32)) else none

def takeDigits (s : Str) : Str := s.takeWhile isDigit

/-- `parseNanoseconds` of the digits after the point: at most nine count -/
def nanos (ds : Str) : Nat :=
  let ds := ds.take 9
  (ds.foldl (fun n c => n * 10 + digitVal c) 0) * 10 ^ (9 - ds.length)

/-- a fraction of a second, which need not be in the layout -/
def getFrac : Str → Nat × Str
  | a :: b :: s =>
    if (a = 46 ∨ a = 44) ∧ isDigit b = true then (nanos (takeDigits (b :: s)), (b :: s).drop (takeDigits (b :: s)).length)
    else (0, a :: b :: s)
  | s => (0, s)

/-- `time.Parse("2006-01-02 15:04:05", s)`: the date in UTC and the nanoseconds; `none` = error -/
def parse (s : Str) : Option (Stamp × Nat) := do
  let (y, s) ← getYear s
  let s ← skipChar 45 s
  let (mo, s) ← getnum true s
  if mo = 0 ∨ 12 < mo then none
  let s ← skipChar 45 s
  let (d, s) ← getnum true s
  let s ← skipBlank s
  let (h, s) ← getnum false s
  if 24 ≤ h then none
  let s ← skipChar 58 s
  let (mi, s) ← getnum true s
  if 60 ≤ mi then none
  let s ← skipChar 58 s
  let (sec, s) ← getnum true s
  if 60 ≤ sec then none
  let (ns, s) := getFrac s
  if s ≠ [] then none
  if d = 0 ∨ daysIn mo y < d then none
  some ({ year := y, month := mo, day := d, hour := h, min := mi, sec := sec }, ns)

/-- two's complement with 64 bits -/
def wrap64 (n : Int) : Int := (n + 9223372036854775808) % 18446744073709551616 - 9223372036854775808

/-- `UnixNano` -/
def unixNano (t : Stamp) (ns : Nat) : Int := wrap64 (unix t * 1000000000 + ns)

/-- `IsZero`: the first second of the year 1 -/
def isZero (t : Stamp) (ns : Nat) : Bool := unix t = -62135596800 && ns = 0

end Verif.Time
