import Mathlib.Analysis.SpecialFunctions.Log.NegMulLog
import Mathlib.Analysis.SpecialFunctions.Sqrt
import Verif.Model.TransPrims
import Verif.Model.Aggregate
/-!
# Statistics

Models the aggregation primitives of `primitives/standard/aggregation_primitives.py` that call pandas, numpy or scipy. What the
library does is written out; rounding is not modelled. A column is a list of cells, `none` standing for NaN.
-/
namespace FT

/-- `Count` (`aggregation_primitives.py` 40-44): `pd.Series.count`. -/
def countPd {α : Type} (s : List (Option α)) : Nat := (s.filterMap id).length

/-- `Sum` (`aggregation_primitives.py` 69-73): `np.sum` of a series leaves NaN out. -/
def sumPd (s : NumSeries) : Rat := (s.filterMap id).sum

/-- The mean of numbers without NaN; NaN if there are none. -/
def meanOf (l : List Rat) : Option Rat := if l.isEmpty then none else some (l.sum / (l.length : Rat))

/-- `Mean` (`aggregation_primitives.py` 103-114): `np.mean` of a series leaves NaN out, `np.mean` of its values does not. -/
def meanPd (skipna : Bool) (s : NumSeries) : Option Rat :=
  if skipna then meanOf (s.filterMap id)
  else if s.any Option.isNone then none else meanOf (s.filterMap id)

/-- `Mean` with Dask and Koalas (`aggregation_primitives.py` 104-105): the function `'mean'`, whatever `skipna` is. -/
def meanDask (_skipna : Bool) (s : NumSeries) : Option Rat := meanOf (s.filterMap id)

/-- `Min` (`aggregation_primitives.py` 157-161). -/
def minPd (s : NumSeries) : Option Rat :=
  match s.filterMap id with
  | [] => none
  | a :: l => some (l.foldl (fun m x => if x < m then x else m) a)

/-- `Max` (`aggregation_primitives.py` 179-183). -/
def maxPd (s : NumSeries) : Option Rat :=
  match s.filterMap id with
  | [] => none
  | a :: l => some (l.foldl (fun m x => if m < x then x else m) a)

/-- `Median` (`aggregation_primitives.py` 444-445): the middle of the sorted values, or the mean of the two in the middle. -/
def medianPd (s : NumSeries) : Option Rat :=
  let l := isort (fun a b => decide (a ≤ b)) (s.filterMap id)
  let n := l.length
  if n % 2 = 1 then l[n / 2]?
  else l[n / 2 - 1]?.bind fun a => l[n / 2]?.map fun b => (a + b) / 2

/-- The sum of the squares of the distances to the mean. -/
def squares (l : List Rat) : Rat := (l.map fun x => (x - l.sum / (l.length : Rat)) ^ 2).sum

/-- `Series.std(ddof)`, missing values left out. -/
noncomputable def stdWith (ddof : Nat) (s : NumSeries) : Option ℝ :=
  let l := s.filterMap id
  if l.length ≤ ddof then none else some (Real.sqrt ((squares l / ((l.length - ddof : Nat) : Rat) : Rat) : ℝ))

/-- `Std` called directly (`aggregation_primitives.py` 487-491): `np.std` of a series has `ddof=0`. -/
noncomputable def stdPd : NumSeries → Option ℝ := stdWith 0

/-- `Std` in the feature matrix (`feature_set_calculator.py` 708-709): `groupby.agg` takes `np.std` for its own `'std'`, whose
`ddof` is 1, as that of `'std'` of Dask and Koalas is. -/
noncomputable def stdGrouped : NumSeries → Option ℝ := stdWith 1

/-- `Skew` (`aggregation_primitives.py` 468-469): pandas' `nanskew`. -/
noncomputable def skewPd (s : NumSeries) : Option ℝ :=
  let l := s.filterMap id
  let n : ℝ := l.length
  let m2 : ℝ := (squares l : Rat)
  let m3 : ℝ := ((l.map fun x => (x - l.sum / (l.length : Rat)) ^ 3).sum : Rat)
  if l.length < 3 then none
  else if m2 = 0 then some 0
  else some (n * Real.sqrt (n - 1) / (n - 2) * (m3 / (m2 * Real.sqrt m2)))

/-- `value_counts(normalize=True, dropna=dropna)` (`aggregation_primitives.py` 814). -/
def distribution (dropna : Bool) (s : List Val) : List Rat :=
  let l := if dropna then FT.dropna s else s
  (dedup l).map fun v => (l.count v : Rat) / (l.length : Rat)

/-- `Entropy` (`aggregation_primitives.py` 812-817): `scipy.stats.entropy`. -/
noncomputable def entropyPd (dropna : Bool) (base : Option Rat) (s : List Val) : ℝ :=
  let S := ((distribution dropna s).map fun (p : Rat) => Real.negMulLog (p : ℝ)).sum
  match base with
  | none => S
  | some b => S / Real.log (b : ℝ)

end FT
