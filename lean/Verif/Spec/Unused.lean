import Verif.Spec.Dfs
/-! Specification of how features use primitives. -/
namespace FT.Spec
open FT

/-- The ways a feature uses a primitive. -/
inductive Role where
  | transform | aggregation | groupby | whered
deriving DecidableEq

/-- The feature itself is made by a primitive of this name. -/
def MadeAs (r : Role) (name : String) (g : DFeat) : Prop :=
  match r with
  | .transform => ∃ p, g.kind = .trans p ∧ p.name = name
  | .aggregation => ∃ path p, g.kind = .agg path p ∧ g.wh = [] ∧ p.name = name
  | .groupby => ∃ p, g.kind = .groupby p ∧ p.name = name
  | .whered => ∃ path p, g.kind = .agg path p ∧ g.wh ≠ [] ∧ p.name = name

/-- One of the features uses, at some depth, a primitive of this name. -/
def UsedAs (r : Role) (name : String) (fs : List DFeat) : Prop := ∃ f ∈ fs, ∃ g, DepUses [] f g ∧ MadeAs r name g

/-- No two different features that are used have one name. -/
def NamesTell (fs : List DFeat) : Prop :=
  ∀ f ∈ fs, ∀ f' ∈ fs, ∀ g g', DepUses [] f g → DepUses [] f' g' → g.name = g'.name → g = g'

end FT.Spec
