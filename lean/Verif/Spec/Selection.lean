import Verif.Model.Selection
/-! Specification of feature selection. -/
namespace FT.Spec
open FT

/-- Two rows differ in the column. -/
def Varies (t : Table) (c : String) : Prop := ∃ r ∈ t.rows, ∃ s ∈ t.rows, r c ≠ s c
/-- Two rows have different values in the column. -/
def HasTwoValues (t : Table) (c : String) : Prop := ∃ r ∈ t.rows, ∃ s ∈ t.rows, r c ≠ .null ∧ s c ≠ .null ∧ r c ≠ s c
/-- Some row has a value in the column. -/
def HasValue (t : Table) (c : String) : Prop := ∃ r ∈ t.rows, r c ≠ .null
/-- The number of rows without value. -/
def nulls (t : Table) (c : String) : Nat := t.rows.countP fun r => decide (r c = .null)

/-- The names of the columns of a feature in the result. -/
def pickedNames : Picked → List String
  | .whole f => f.names
  | .slice f i => [f.names.getD i ""]

/-- A feature with one output has its column's name. -/
def Sound (f : SelFeat) : Prop := f.names ≠ [] ∧ (f.names.length = 1 → f.names = [f.name])

/-- The correlation of the columns is known and at least the threshold, or at most its negative. -/
def Correlated (S : Stats) (t : Table) (threshold : Rat) (c d : String) : Prop :=
  ∃ x, S.corr (t.rows.map fun r => r c) (t.rows.map fun r => r d) = some x ∧ (threshold ≤ x ∨ x ≤ -threshold)

/-- `d` comes before `c`. -/
def Before (l : List String) (d c : String) : Prop := ∃ i j : Nat, i < j ∧ l[i]? = some d ∧ l[j]? = some c

end FT.Spec
