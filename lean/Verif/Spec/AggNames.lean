import Verif.Model.AggNames
/-! # Words of the property about aggregations in one pass -/
namespace FT.Spec

/-- The feature is calculated by `groupby.agg`: one output, no time, and one input besides the condition. -/
def ByAgg (f : AggReq) : Prop :=
  f.usesCalcTime = false ∧ f.outputs = 1 ∧ (f.bases.filter fun b => f.whereName ≠ some b).length = 1

/-- No input is counted twice by features calculated by `groupby.agg`. -/
def OneCount (fs : List AggReq) : Prop :=
  fs.Pairwise fun f g => ByAgg f → ByAgg g → f.function = .count → g.function = .count → f.bases.headD "" ≠ g.bases.headD ""

/-- What should be in the result: for every feature the result of its function for its inputs. -/
def ownColumn (f : AggReq) : AggColumn := ⟨f.name, f.function, f.bases⟩

end FT.Spec
