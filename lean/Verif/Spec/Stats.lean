import Mathlib.Analysis.SpecialFunctions.Log.NegMulLog
import Mathlib.Algebra.Order.BigOperators.Group.List
import Verif.Model.Table
/-! # Words of the properties about statistics -/
namespace FT.Spec

/-- The distances to the mean cancel. -/
def IsMean (l : List Rat) (m : Rat) : Prop := l ≠ [] ∧ (l.map fun x => x - m).sum = 0

/-- The middle of the values in order: twice the median is the sum of the two middle values, which are one value if the number of
values is odd. -/
def IsMedian (l : List Rat) (m : Rat) : Prop :=
  ∃ sorted : List Rat, sorted.Perm l ∧ sorted.Pairwise (· ≤ ·) ∧
    ∃ a b, sorted[(l.length - 1) / 2]? = some a ∧ sorted[l.length / 2]? = some b ∧ 2 * m = a + b

/-- The standard deviation: the root of the mean of the squares of the distances to the mean, `freedom` being what the sum
is divided by. -/
def IsDeviation (l : List Rat) (freedom : Nat) (σ : ℝ) : Prop :=
  0 ≤ σ ∧ ∃ m, IsMean l m ∧ (freedom : ℝ) * σ ^ 2 = (l.map fun (x : Rat) => ((x : ℝ) - (m : ℝ)) ^ 2).sum

/-- The adjusted skewness of Fisher and Pearson for at least three values; zero for equal values. -/
def IsSkewness (l : List Rat) (g : ℝ) : Prop :=
  3 ≤ l.length ∧
    (((∀ x ∈ l, ∀ y ∈ l, x = y) ∧ g = 0) ∨
     ∃ m σ, IsMean l m ∧ IsDeviation l (l.length - 1) σ ∧ 0 < σ ∧
      g = (l.length : ℝ) / (((l.length : ℝ) - 1) * ((l.length : ℝ) - 2)) * (l.map fun (x : Rat) => (((x : ℝ) - (m : ℝ)) / σ) ^ 3).sum)

/-- The share of a value. -/
noncomputable def portion (s : List Val) (v : Val) : ℝ := (s.count v : ℝ) / (s.length : ℝ)

/-- Shannon's entropy of the values in natural units, `vs` listing the values that occur. -/
noncomputable def entropy (s vs : List Val) : ℝ := (vs.map fun v => - (portion s v * Real.log (portion s v))).sum

end FT.Spec
