import Verif.Model.Cumulative
import Verif.Model.Util
/-!
# Transform primitives

Models `primitives/standard/transform_primitive.py` except `Diff` (in `Model/Cumulative.lean`) and `Haversine` (in
`Model/Haversine.lean`).  Datetimes are whole nanoseconds since 1970 without time zone, `none` standing for NaT; numbers are
exact fractions where the code has floating point.  What pandas does is written out: `Series.dt` after numpy's
`datetime_strings`/`np_datetime.c`, `rank` after pandas' `algos.rank_1d`.
-/
namespace FT

/-- A series of datetimes. -/
abbrev TimeSeries := List (Option Int)

/-- `IsNull` (`transform_primitive.py` 38-41). -/
def isNullSeries {α : Type} (values : List (Option α)) : List Bool := values.map Option.isNone

/-- `Absolute` (`transform_primitive.py` 58-59): NaN stays NaN. -/
def absSeries (values : NumSeries) : NumSeries := values.map fun v => v.map fun x => if x < 0 then -x else x

/-- `Negate` (`transform_primitive.py` 496-499). -/
def negateSeries (values : NumSeries) : NumSeries := values.map fun v => v.map fun x => x * (-1)

/-- `Not` (`transform_primitive.py` 522-523) of a column without missing values. -/
def notSeries (values : List Bool) : List Bool := values.map (! ·)

/-- `Series.diff()` of datetimes, in nanoseconds (`transform_primitive.py` 96). -/
def timeDiff (values : TimeSeries) : TimeSeries :=
  List.zipWith (fun a b => a.bind fun x => b.map fun y => x - y) values (none :: values)

/-- `Timedelta.total_seconds()`. -/
def totalSeconds (ns : Int) : Rat := (ns : Rat) / 1000000000

/-- `convert_time_units` on a series (`utils/time_utils.py` 53-74): one look at the unit, then a division per cell. -/
def convertSeries (secs : NumSeries) (unit : String) : Except PyErr NumSeries :=
  match unitDivs.get? unit with
  | none => .error .valueError
  | some d => .ok (secs.map fun v => v.map fun x => x / d)

/-- `TimeSincePrevious` (`transform_primitive.py` 91-97). `lower` stands for `str.lower`. -/
def timeSincePrevious (lower : String → String) (unit : String) (values : TimeSeries) : Except PyErr NumSeries :=
  convertSeries ((timeDiff values).map fun d => d.map totalSeconds) (lower unit)

/-- `TimeSince` (`transform_primitive.py` 413-419). -/
def timeSince (lower : String → String) (unit : String) (values : TimeSeries) (time : Int) : Except PyErr NumSeries :=
  convertSeries (values.map fun v => v.map fun x => totalSeconds (time - x)) (lower unit)

/-- `Age` (`transform_primitive.py` 692-695): `Timedelta.days` rounds down. -/
def ageSeries (values : TimeSeries) (time : Int) : NumSeries :=
  values.map fun v => v.map fun x => (((time - x) / dayNs : Int) : Rat) / 365

/-! ### Parts of dates -/

/-- numpy's `is_leapyear`. -/
def isLeap (y : Int) : Bool := y % 4 = 0 && (y % 100 ≠ 0 || y % 400 = 0)

/-- numpy's `days_to_yearsdays`: the year of a day counted from 1970-01-01, and the number of the day in it, from 0. -/
def yearAndDay (days : Int) : Int × Int :=
  let d0 := days - (365 * 30 + 7)
  let year := 400 * (d0 / 146097)
  let d1 := d0 % 146097
  if 366 ≤ d1 then
    let year := year + 100 * ((d1 - 1) / 36524)
    let d2 := (d1 - 1) % 36524
    if 365 ≤ d2 then
      let year := year + 4 * ((d2 + 1) / 1461)
      let d3 := (d2 + 1) % 1461
      if 366 ≤ d3 then (year + (d3 - 1) / 365 + 2000, (d3 - 1) % 365)
      else (year + 2000, d3)
    else (year + 2000, d2)
  else (year + 2000, d1)

/-- numpy's `days_per_month_table`. -/
def monthLengths (leap : Bool) : List Int := [31, if leap then 29 else 28, 31, 30, 31, 30, 31, 31, 30, 31, 30, 31]

/-- The loop of numpy's `set_datetimestruct_days`: month and day of the month. -/
def monthAndDay : List Int → Int → Int → Int × Int
  | [], m, d => (m, d + 1)
  | l :: ls, m, d => if d < l then (m, d + 1) else monthAndDay ls (m + 1) (d - l)

/-- Year, month and day of a day. -/
def civil (days : Int) : Int × Int × Int :=
  let yd := yearAndDay days
  (yd.1, monthAndDay (monthLengths (isLeap yd.1)) 1 yd.2)

/-- The day of a datetime. -/
def dayOf (t : Int) : Int := t / dayNs

/-- `Series.dt.weekday`: Monday is 0; 1970-01-01 was a Thursday. -/
def weekdayOf (t : Int) : Int := (dayOf t + 3) % 7

/-- `Series.dt.week` (ISO 8601): the number of the week whose Thursday it is in the year of that Thursday. -/
def weekOf (t : Int) : Int := (yearAndDay (dayOf t - weekdayOf t + 3)).2 / 7 + 1

/-- A part of a datetime for every cell; NaN for NaT. -/
def datePart (f : Int → Int) (values : TimeSeries) : List (Option Int) := values.map fun v => v.map f

/-- `Year` (`transform_primitive.py` 272-275). -/
def yearPart : TimeSeries → List (Option Int) := datePart fun t => (civil (dayOf t)).1
/-- `Month` (`transform_primitive.py` 248-251). -/
def monthPart : TimeSeries → List (Option Int) := datePart fun t => (civil (dayOf t)).2.1
/-- `Day` (`transform_primitive.py` 118-121). -/
def dayPart : TimeSeries → List (Option Int) := datePart fun t => (civil (dayOf t)).2.2
/-- `Hour` (`transform_primitive.py` 142-145). -/
def hourPart : TimeSeries → List (Option Int) := datePart fun t => t % dayNs / 3600000000000
/-- `Minute` (`transform_primitive.py` 190-193). -/
def minutePart : TimeSeries → List (Option Int) := datePart fun t => t % 3600000000000 / 60000000000
/-- `Second` (`transform_primitive.py` 166-169). -/
def secondPart : TimeSeries → List (Option Int) := datePart fun t => t % 60000000000 / 1000000000
/-- `Week` (`transform_primitive.py` 219-227). -/
def weekPart : TimeSeries → List (Option Int) := datePart weekOf
/-- `Weekday` (`transform_primitive.py` 324-327). -/
def weekdayPart : TimeSeries → List (Option Int) := datePart weekdayOf
/-- `IsWeekend` (`transform_primitive.py` 296-299): a comparison with NaN is false. -/
def isWeekend (values : TimeSeries) : List Bool := (weekdayPart values).map fun v => match v with | some d => decide (4 < d) | none => false

/-! ### Text, lists, ranks -/

/-- `NumCharacters` (`transform_primitive.py` 346-349). -/
def numCharacters (values : List (Option String)) : List Nat := values.map fun v => (v.getD "").toList.length

/-- `NumWords` (`transform_primitive.py` 369-372). -/
def numWords (values : List (Option String)) : List Nat := values.map fun v => (v.getD "").toList.count ' ' + 1

/-- `IsIn` (`transform_primitive.py` 444-447). -/
def isInSeries {α : Type} [DecidableEq α] (outputs : Option (List α)) (values : List α) : List Bool :=
  values.map fun v => (outputs.getD []).contains v

/-- The ranks of the values of a sorted list whose first position is `i`: a run of equal values shares the mean of its
positions. -/
def runRanks : Nat → Nat → List Rat → List (Rat × Rat)
  | 0, _, _ => []
  | _, _, [] => []
  | fuel + 1, i, x :: l =>
    let k := (l.takeWhile (· = x)).length + 1
    (x, ((((List.range k).map fun j => i + j + 1).sum : Nat) : Rat) / (k : Rat)) :: runRanks fuel (i + k) (l.dropWhile (· = x))

/-- `Percentile` (`transform_primitive.py` 545-546): `Series.rank(pct=True)`. -/
def percentile (values : NumSeries) : NumSeries :=
  let present := values.filterMap id
  let ranks := runRanks present.length 0 (isort (fun a b => decide (a ≤ b)) present)
  values.map fun v => v.bind fun x => (ranks.lookup x).map fun r => r / (present.length : Rat)

/-! ### Coordinates -/

/-- A cell of a LatLong column: a single NaN, or a pair whose parts may be NaN. -/
inductive LatLong where
  | nan
  | pair (lat lon : Option Rat)
deriving DecidableEq, Repr

/-- `replace_latlong_nan` (`utils/entity_utils.py` 226-228). The replacement has the labels 0, 1, ..., and `Series.where` takes
from it the cell with the label of the row; rows with other labels keep NaN. A row is its label (`none` for labels that are
no integers) and its cell. -/
def replaceLatLongNan (values : List (Option Int × LatLong)) : List (Option Int × LatLong) :=
  values.map fun v => match v with
    | (some i, .nan) => if 0 ≤ i ∧ i < values.length then (some i, .pair none none) else (some i, .nan)
    | v => v

/-- `x[0]` or `x[1]` for every cell; NaN cannot be indexed. -/
def latLongParts (part : Option Rat → Option Rat → Option Rat) : List (Option Int × LatLong) → Except PyErr NumSeries
  | [] => .ok []
  | (_, .nan) :: _ => .error .typeError
  | (_, .pair a b) :: l => (latLongParts part l).map (part a b :: ·)

/-- `latlong.hasnans`: pairs count as values. -/
def hasNans (values : List (Option Int × LatLong)) : Bool := values.any fun v => v.2 = .nan

/-- `Latitude` (`transform_primitive.py` 565-570). -/
def latitude (values : List (Option Int × LatLong)) : Except PyErr NumSeries :=
  latLongParts (fun a _ => a) (if hasNans values then replaceLatLongNan values else values)

/-- `Longitude` (`transform_primitive.py` 589-594). -/
def longitude (values : List (Option Int × LatLong)) : Except PyErr NumSeries :=
  latLongParts (fun _ b => b) (if hasNans values then replaceLatLongNan values else values)

end FT
