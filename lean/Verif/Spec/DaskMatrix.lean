import Verif.Spec.Dask
import Verif.Spec.Cfm
import Verif.Model.DaskMatrix
/-! # Words of the properties about feature matrices on Dask entity sets -/
namespace FT.Spec

/-- Whatever Dask chooses during a call, no rows are lost or made up. -/
def FairChoice (D : DaskChoice) : Prop :=
  ∀ t ids, FairArrange (D.arrange t ids) ∧ ∀ k rows, (D.order t ids k rows).Perm rows

/-- What one row of the cutoff table gives: for a visible instance a row with the values of the features, the id and the passed cells;
for others nothing, or missing values with the id and the passed cells if columns are passed. -/
def daskAnswer (env : Env) (features : List Feat) (e : String) (passCols : List String) (id : Val) (t : Int) (pass : List Val) :
    List (List Val) :=
  if id ∈ (worldAt env t).ids e then [(features.flatMap fun f => meaning (worldAt env t) f id) ++ [id] ++ pass]
  else if passCols = [] then []
  else [((features.flatMap Feat.names).map fun _ => .null) ++ [id] ++ pass]

end FT.Spec
