import Verif.Spec.Calculator
import Verif.Model.Dask
/-! # Words of the properties about Dask entity sets -/
namespace FT.Spec

/-- Whatever Dask chooses, rows are neither lost nor made up: merges and partitions only change the order. -/
structure FairArrange (A : Arrange) : Prop where
  order : ∀ p k rows, (A.order p k rows).Perm rows
  split : ∀ p n id col, (Parts.rowsL (A.split p n id col)).Perm col

/-- The Dask version of a primitive gives the value of the primitive, however the rows are spread and whatever their order. -/
def SameAggregate (p : AggPrim) (g : List (Parts Val) → Val) : Prop :=
  ∀ t ps col, (Parts.rowsL ps).Perm col → col ≠ [] → p.fn t [col] = [g ps]

/-- The features supported on Dask: no group-by features and nothing that needs the full entity; aggregations of one column
into one value that have a Dask version and do not count observations; direct features of other columns than the index. -/
def DaskFeature (A : Arrange) (f : Feat) : Prop :=
  match f.kind with
  | .identity _ => True
  | .slice _ => True
  | .direct r => ∀ b ∈ f.bases, r.parentV ∉ b.names
  | .agg _ p prev _ => p.usesCalcTime = false ∧ (∃ b, f.bases = [b] ∧ ∀ w ∈ f.wh, w.name ≠ b.name) ∧ f.names.length = 1 ∧
      (∀ times, prev = some times → obsCount times = none) ∧ ∃ g, A.version p = some g ∧ SameAggregate p g
  | .trans p => p.usesFull = false
  | .groupby _ => False

end FT.Spec
