import Verif.Go.Time
/-!
# The calendar
-/
namespace Verif.Time.Spec
open Verif Verif.Time

/-- A year with 366 days. -/
def Leap (y : Int) : Prop := 4 ∣ y ∧ (¬ 100 ∣ y ∨ 400 ∣ y)

instance (y : Int) : Decidable (Leap y) := by unfold Leap; infer_instance

/-- The number of days of a month. -/
def monthLength (y : Int) : Nat → Nat
  | 4 | 6 | 9 | 11 => 30
  | 2 => if Leap y then 29 else 28
  | _ => 31

/-- A date of the years 0 to 9999 that exists. -/
structure Valid (t : Stamp) : Prop where
  year : 0 ≤ t.year ∧ t.year ≤ 9999
  month : 1 ≤ t.month ∧ t.month ≤ 12
  day : 1 ≤ t.day ∧ t.day ≤ monthLength t.year t.month
  hour : t.hour < 24
  min : t.min < 60
  sec : t.sec < 60

/-- The next day. -/
def nextDay (t : Stamp) : Stamp :=
  if t.day < monthLength t.year t.month then { t with day := t.day + 1 }
  else if t.month < 12 then { t with month := t.month + 1, day := 1 }
  else { t with year := t.year + 1, month := 1, day := 1 }

/-- One second later. -/
def tick (t : Stamp) : Stamp :=
  if t.sec < 59 then { t with sec := t.sec + 1 }
  else if t.min < 59 then { t with min := t.min + 1, sec := 0 }
  else if t.hour < 23 then { t with hour := t.hour + 1, min := 0, sec := 0 }
  else nextDay { t with hour := 0, min := 0, sec := 0 }

/-- The beginning of 1970. -/
def epoch : Stamp := { year := 1970, month := 1, day := 1, hour := 0, min := 0, sec := 0 }

/-- The first and the last second of the years 0 to 9999. -/
def first : Stamp := { year := 0, month := 1, day := 1, hour := 0, min := 0, sec := 0 }
def last : Stamp := { year := 9999, month := 12, day := 31, hour := 23, min := 59, sec := 59 }

/-- A time of day as it is typed. -/
def clock (t : Stamp) : Str := two t.hour ++ b! ":" ++ two t.min ++ b! ":" ++ two t.sec
/-- The day as it is typed. -/
def date (t : Stamp) : Str := four t.year.toNat ++ b! "-" ++ two t.month ++ b! "-" ++ two t.day

/-- A date as it is typed. -/
def text (t : Stamp) : Str := date t ++ b! " " ++ clock t

end Verif.Time.Spec
