import Verif.Model.Table
/-!
# Words of the properties about aggregation primitives
-/
namespace FT.Spec

/-- `n` is the number of different values in the column, missing ones not counted. -/
def NumDistinct (s : List Val) (n : Nat) : Prop := ∃ vs : List Val, vs.Nodup ∧ (∀ v, v ∈ vs ↔ v ∈ s ∧ v ≠ .null) ∧ n = vs.length

/-- `v` is a value of the column, and no value occurs more often. -/
def MostFrequent (s : List Val) (v : Val) : Prop := v ∈ s ∧ v ≠ .null ∧ ∀ w ∈ s, w ≠ .null → s.count w ≤ s.count v

/-- Different values of the column, by descending frequency, and none left out occurs more often than one of them. -/
def MostCommon (s vs : List Val) : Prop :=
  vs.Nodup ∧ (∀ v ∈ vs, v ∈ s ∧ v ≠ .null) ∧ vs.Pairwise (fun a b => s.count b ≤ s.count a) ∧
    ∀ v ∈ vs, ∀ w ∈ s, w ≠ .null → w ∉ vs → s.count w ≤ s.count v

/-- The differences between neighbours. -/
def gaps : List Int → List Int
  | a :: b :: l => (b - a) :: gaps (b :: l)
  | _ => []

/-- The length of a unit of time in seconds. -/
def UnitSeconds (unit : String) (d : Rat) : Prop :=
  (unit, d) ∈ [("years", 31540000), ("months", 2628000), ("days", 86400), ("hours", 3600), ("minutes", 60), ("seconds", 1),
    ("milliseconds", 1 / 1000), ("nanoseconds", 1 / 1000000000)]

/-- The squared error of the line `a + b x`. -/
def sqErr : List (Rat × Rat) → Rat → Rat → Rat
  | [], _, _ => 0
  | p :: ps, a, b => (p.2 - (a + b * p.1)) * (p.2 - (a + b * p.1)) + sqErr ps a b

/-- `s` is the slope of a line with the least squared error. -/
def LeastSquaresSlope (pts : List (Rat × Rat)) (s : Rat) : Prop := ∃ c, ∀ a b, sqErr pts c s ≤ sqErr pts a b

/-- The points without missing coordinates, the time in units of `d` seconds. -/
def points (d : Rat) : List (Option Int) → List (Option Rat) → List (Rat × Rat)
  | some t :: ts, some v :: vs => ((t : Rat) / 1000000000 / d, v) :: points d ts vs
  | _ :: ts, _ :: vs => points d ts vs
  | _, _ => []

/-- The first time that has a value. -/
def firstTime : List (Option Int) → List (Option Rat) → Option Int
  | some t :: _, some _ :: _ => some t
  | _ :: ts, _ :: vs => firstTime ts vs
  | _, _ => none

/-- The unit is a day when the time is at the start of a day, else an hour, a minute or a second in the same way. -/
def ClockUnit (seconds d : Int) : Prop :=
  d ∈ ([86400, 3600, 60, 1] : List Int) ∧ d ∣ seconds ∧ ∀ e ∈ ([86400, 3600, 60, 1] : List Int), d < e → ¬ e ∣ seconds

end FT.Spec
