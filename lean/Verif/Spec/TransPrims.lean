import Verif.Model.Basic
/-! # What the transform primitives should compute -/
namespace FT.Spec

/-- Leap years of the Gregorian calendar. -/
def LeapYear (y : Int) : Prop := y % 4 = 0 ∧ (y % 100 ≠ 0 ∨ y % 400 = 0)

instance (y : Int) : Decidable (LeapYear y) := by unfold LeapYear; infer_instance

/-- `start y` is the number of days from 1970-01-01 to the first day of the year `y`. -/
structure Calendar (start : Int → Int) : Prop where
  epoch : start 1970 = 0
  next : ∀ y, start (y + 1) = start y + if LeapYear y then 366 else 365

/-- The number of days of a month. -/
def daysIn (y m : Int) : Int :=
  if m = 2 then (if LeapYear y then 29 else 28) else if m = 4 ∨ m = 6 ∨ m = 9 ∨ m = 11 then 30 else 31

/-- The days of the year `y` before its month `m`. -/
def daysBefore (y m : Int) : Int := ((List.range (m - 1).toNat).map fun (k : Nat) => daysIn y ((k : Int) + 1)).sum

/-- The day number `k`, counted from 1970-01-01, has the date `y`-`m`-`d`. -/
def IsDate (start : Int → Int) (k y m d : Int) : Prop :=
  1 ≤ m ∧ m ≤ 12 ∧ 1 ≤ d ∧ d ≤ daysIn y m ∧ k = start y + daysBefore y m + (d - 1)

/-- The datetime `t` (nanoseconds since 1970) is on day `k`. -/
def OnDay (t k : Int) : Prop := k * 86400000000000 ≤ t ∧ t < (k + 1) * 86400000000000

/-- The week with number `n` in the sense of ISO 8601: weeks start on Monday, and a week belongs to the year of its Thursday.
1970-01-01 was a Thursday. -/
def IsoWeek (start : Int → Int) (k n : Int) : Prop :=
  ∃ thursday y, thursday % 7 = 0 ∧ thursday - 3 ≤ k ∧ k ≤ thursday + 3 ∧ start y ≤ thursday ∧ thursday < start (y + 1) ∧
    7 * (n - 1) ≤ thursday - start y ∧ thursday - start y < 7 * n

/-- The length of a unit of time in seconds, as documented for `TimeSince`, where the length of a month is a twelfth of 365 days
and that of a year close to 365 days. -/
def secondsPer (unit : String) : Option Rat :=
  match unit with
  | "years" => some 31540000
  | "months" => some (365 * 24 * 3600 / 12)
  | "days" => some (24 * 3600)
  | "hours" => some 3600
  | "minutes" => some 60
  | "seconds" => some 1
  | "milliseconds" => some (1 / 1000)
  | "nanoseconds" => some (1 / 1000000000)
  | _ => none

/-- The values that are present. -/
def present (values : List (Option Rat)) : List Rat := values.filterMap id

/-- The share of values below `x`, where half of the values equal to `x` and half of one value count as below: the mean
position of `x` among the sorted values divided by their number. -/
def percentileRank (vs : List Rat) (x : Rat) : Rat :=
  (((vs.filter fun y => y < x).length : Rat) + (((vs.filter fun y => y = x).length : Rat) + 1) / 2) / (vs.length : Rat)

end FT.Spec
