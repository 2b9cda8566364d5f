import Verif.Model.Table
/-!
# Cumulative primitives

Models `primitives/standard/cum_transform_feature.py` and `Diff` of `primitives/standard/transform_primitive.py`.  A
numeric series is a list of numbers, `none` standing for NaN; numbers are exact fractions where the code has floating
point.  What pandas' `cumsum`, `cummin`, `cummax` and `diff` do is written out as one pass over the series.
-/
namespace FT

/-- A numeric series. -/
abbrev NumSeries := List (Option Rat)

/-- pandas' cumulative operations: missing values stay missing and do not change the running value. -/
def runFrom (op : Rat → Rat → Rat) : Option Rat → NumSeries → NumSeries
  | _, [] => []
  | acc, none :: l => none :: runFrom op acc l
  | none, some x :: l => some x :: runFrom op (some x) l
  | some a, some x :: l => some (op a x) :: runFrom op (some (op a x)) l

/-- `CumSum` (`cum_transform_feature.py` 28-32). -/
def cumSum (values : NumSeries) : NumSeries := runFrom (fun a x => a + x) none values

/-- `np.arange(1, n + 1)`. -/
def arangeFrom1 (n : Nat) : List Rat := (List.range n).map fun i => ((i + 1 : Nat) : Rat)

/-- `CumCount` (`cum_transform_feature.py` 55-59). -/
def cumCount {α : Type} (values : List α) : List Rat := arangeFrom1 values.length

/-- `CumMean` (`cum_transform_feature.py` 83-87): NaN divided by a number is NaN. -/
def cumMean (values : NumSeries) : NumSeries :=
  List.zipWith (fun v n => v.map fun x => x / n) (cumSum values) (arangeFrom1 values.length)

/-- `CumMin` (`cum_transform_feature.py` 111-115). -/
def cumMin (values : NumSeries) : NumSeries := runFrom (fun a x => if x < a then x else a) none values

/-- `CumMax` (`cum_transform_feature.py` 139-143). -/
def cumMax (values : NumSeries) : NumSeries := runFrom (fun a x => if a < x then x else a) none values

/-- `a - b`, NaN when one of them is NaN. -/
def minusNan (a b : Option Rat) : Option Rat := a.bind fun x => b.map fun y => x - y

/-- `Diff` (`transform_primitive.py` 476-479): `values - values.shift(1)`. -/
def diffSeries (values : NumSeries) : NumSeries := List.zipWith minusNan values (none :: values)

end FT
