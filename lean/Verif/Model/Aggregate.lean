import Verif.Model.Util
/-!
# Aggregation primitives

Models `primitives/standard/aggregation_primitives.py`: the primitives that are more than a call of pandas, and both
versions (pandas and Dask) of those with a Dask version written in Featuretools.  `none` and `Val.null` stand for missing
values; numbers are exact fractions where the code has floating point, times are nanoseconds.
-/
namespace FT

/-! ### The pandas versions -/

/-- `NumUnique` (`aggregation_primitives.py` 228): `pd.Series.nunique`. -/
def numUniquePd (s : List Val) : Nat := (dedup (dropna s)).length

/-- `NumTrue` (`aggregation_primitives.py` 265): `np.sum` of a series of booleans, missing values left out. -/
def numTruePd (s : List (Option Bool)) : Nat := (s.filter fun v => v == some true).length

/-- `s.fillna(0)` as numbers. -/
def fillZero (s : List (Option Bool)) : List Rat := s.map fun v => if v = some true then 1 else 0

/-- `PercentTrue` (`aggregation_primitives.py` 313-316): the mean of an empty series is NaN. -/
def percentTruePd (s : List (Option Bool)) : Option Rat :=
  if s.isEmpty then none else some ((fillZero s).sum / s.length)

/-- `Any` (`aggregation_primitives.py` 565): `np.any`, missing values left out. -/
def anyPd (s : List (Option Bool)) : Bool := s.any fun v => v == some true

/-- `All` (`aggregation_primitives.py` 597): `np.all`, missing values left out. -/
def allPd (s : List (Option Bool)) : Bool := s.all fun v => v != some false

/-- `Mode` (`aggregation_primitives.py` 135-139): pandas' `mode()` gives the most frequent values in ascending order, missing
values not counted; `le` is the order of values. -/
def modePd (le : Val → Val → Bool) (s : List Val) : Val :=
  ((isort le ((dedup (dropna s)).filter fun v => (dropna s).all fun w => decide (s.count w ≤ s.count v))).head?).getD .null

/-- `value_counts().index`: distinct values by descending count; `ties` is the order pandas happens to have them in before
sorting. -/
def valueCounts (ties : List Val → List Val) (s : List Val) : List Val :=
  isort (fun a b => decide (s.count b ≤ s.count a)) (ties (dedup (dropna s)))

/-- `NMostCommon` (`aggregation_primitives.py` 351-359). -/
def nMostCommonPd (ties : List Val → List Val) (n : Nat) (s : List Val) : List Val :=
  let array := (valueCounts ties s).take n
  if array.length < n then array ++ List.replicate (n - array.length) .null else array

/-- `First` (`aggregation_primitives.py` 508-512). -/
def firstPd {α : Type} (s : List α) : Except PyErr α := (s.head?).elim (.error .indexError) .ok

/-- `Last` (`aggregation_primitives.py` 529-533). -/
def lastPd {α : Type} (s : List α) : Except PyErr α := (s.getLast?).elim (.error .indexError) .ok

/-- `x.max()` and `x.min()`. -/
def maxInt (a : Int) (l : List Int) : Int := l.foldl (fun m x => if m < x then x else m) a
/-- See `maxInt`. -/
def minInt (a : Int) (l : List Int) : Int := l.foldl (fun m x => if x < m then x else m) a

/-- `AvgTimeBetween` (`aggregation_primitives.py` 395-423), `unit` in lower case. -/
def avgTimeBetween (unit : String) (s : List (Option Int)) : Except PyErr (Option Rat) :=
  match s.filterMap id with
  | [] => .ok none
  | [_] => .ok none
  | a :: x =>
    let avg : Rat := ((maxInt a x - minInt a x : Int) : Rat) / (x.length : Rat)
    (convertTimeUnits (avg / 1000000000) unit).map some

/-- The unit of a missing time is checked nevertheless. -/
def sinceIn (unit : String) (time : Int) (v : Option Int) : Except PyErr (Option Rat) :=
  match v with
  | none => (convertTimeUnits 0 unit).map fun _ => none
  | some t => (convertTimeUnits (((time - t : Int) : Rat) / 1000000000) unit).map some

/-- `TimeSinceLast` (`aggregation_primitives.py` 642-647). -/
def timeSinceLast (unit : String) (time : Int) (s : List (Option Int)) : Except PyErr (Option Rat) :=
  (lastPd s).bind (sinceIn unit time)

/-- `TimeSinceFirst` (`aggregation_primitives.py` 692-697). -/
def timeSinceFirst (unit : String) (time : Int) (s : List (Option Int)) : Except PyErr (Option Rat) :=
  (firstPd s).bind (sinceIn unit time)

/-- `find_dividend_by_unit` (`aggregation_primitives.py` 771-779). -/
def findDividend (time : Int) : Int :=
  if time % 86400 = 0 then 86400 else if time % 3600 = 0 then 3600 else if time % 60 = 0 then 60 else 1

/-- The rows without missing values (`aggregation_primitives.py` 726): times and values. -/
def completeRows (y : List (Option Rat)) (x : List (Option Int)) : List (Int × Rat) :=
  (x.zip y).filterMap fun p => p.1.bind fun t => p.2.map fun v => (t, v)

/-- `convert_datetime_to_floats` (`aggregation_primitives.py` 756-761); `int` cuts off towards zero. -/
def datetimeToFloats (first : Int) (x : List Int) : List Rat :=
  x.map fun (t : Int) => (t : Rat) / 1000000000 / (findDividend (first.tdiv 1000000000) : Rat)

/-- `x - x.mean()`. -/
def centred (x : List Rat) : List Rat := x.map fun v => v - x.sum / (x.length : Rat)

/-- The first coefficient of `np.polyfit(x, y, 1)`, by the normal equations. -/
def fitSlope (pts : List (Rat × Rat)) : Rat :=
  let n : Rat := pts.length
  let sx := (pts.map fun p => p.1).sum
  let sy := (pts.map fun p => p.2).sum
  let sxx := (pts.map fun p => p.1 * p.1).sum
  let sxy := (pts.map fun p => p.1 * p.2).sum
  (n * sxy - sx * sy) / (n * sxx - sx * sx)

/-- `Trend` (`aggregation_primitives.py` 724-753), for numbers over datetimes. -/
def trendPd (y : List (Option Rat)) (x : List (Option Int)) : Option Rat :=
  match completeRows y x with
  | [] => none
  | [_] => none
  | [_, _] => none
  | (t0, v0) :: rows =>
    let df := (t0, v0) :: rows
    let xs := centred (datetimeToFloats t0 (df.map Prod.fst))
    let ys := centred (df.map Prod.snd)
    if (dedup xs).length = 1 then some 0 else some (fitSlope (xs.zip ys))

/-! ### The Dask versions -/

/-- `dd.Aggregation(name, chunk, agg, finalize)`, for the rows of one group. -/
structure DaskAgg (α β γ : Type) where
  chunk : List α → β
  agg : List β → β
  finalize : β → γ

/-- How Dask splits the rows of a group: into partitions, whose results are combined in a tree. -/
inductive Parts (α : Type) where
  | one (rows : List α)
  | many (ps : List (Parts α))

mutual
/-- The rows of all partitions. -/
def Parts.rows {α : Type} : Parts α → List α
  | .one r => r
  | .many ps => Parts.rowsL ps
/-- The rows of a list of partitions. -/
def Parts.rowsL {α : Type} : List (Parts α) → List α
  | [] => []
  | p :: ps => p.rows ++ Parts.rowsL ps
end

mutual
/-- The intermediate results: a partition without rows of the group has none. Dask uses `agg` also to combine. -/
def DaskAgg.reduce {α β γ : Type} (d : DaskAgg α β γ) : Parts α → List β
  | .one r => if r.isEmpty then [] else [d.chunk r]
  | .many ps => let bs := d.reduceL ps; if bs.isEmpty then [] else [d.agg bs]
/-- The intermediate results of a list of partitions. -/
def DaskAgg.reduceL {α β γ : Type} (d : DaskAgg α β γ) : List (Parts α) → List β
  | [] => []
  | p :: ps => d.reduce p ++ d.reduceL ps
end

/-- The result for the group. -/
def DaskAgg.run {α β γ : Type} (d : DaskAgg α β γ) (ps : List (Parts α)) : γ := d.finalize (d.agg (d.reduceL ps))

/-- `NumUnique` (`aggregation_primitives.py` 207-223); sets are lists without repetition. -/
def numUniqueDask : DaskAgg Val (List Val) Nat where
  chunk s := dedup (dropna s)
  agg bs := dedup bs.flatten
  finalize b := b.length

/-- `NumTrue` (`aggregation_primitives.py` 253-263). -/
def numTrueDask : DaskAgg (Option Bool) Nat Nat where
  chunk s := (s.filter fun v => v == some true).length
  agg bs := bs.sum
  finalize b := b

/-- `PercentTrue` (`aggregation_primitives.py` 292-311). -/
def percentTrueDask : DaskAgg (Option Bool) (Rat × Nat) Rat where
  chunk s := ((fillZero s).sum, s.length)
  agg bs := ((bs.map Prod.fst).sum, (bs.map Prod.snd).sum)
  finalize b := b.1 / (b.2 : Rat)

/-- `Any` (`aggregation_primitives.py` 556-563). -/
def anyDask : DaskAgg (Option Bool) Bool Bool where
  chunk s := s.any fun v => v == some true
  agg bs := bs.any id
  finalize b := b

/-- `All` (`aggregation_primitives.py` 588-595). -/
def allDask : DaskAgg (Option Bool) Bool Bool where
  chunk s := s.all fun v => v != some false
  agg bs := bs.all id
  finalize b := b

end FT
