import Verif.Spec.Cfm
import Verif.Spec.Approx
import Verif.Spec.Util
/-! # What a feature matrix with `approximate` should contain -/
namespace FT.Spec

/-- An aggregation feature. -/
def IsAgg (f : Feat) : Prop := ∃ path prim prev uses, f.kind = .agg path prim prev uses

/-- The features that are approximated, and where: an aggregation `g` at the end of the path `p` of direct features of a
requested feature, unless this is computed on the full entity or needed for a feature that is. -/
def Approximated (features : List Feat) (p : List Edge) (g : Feat) : Prop :=
  ∃ f ∈ features, ¬ FullEntityInvolved features f ∧ DirectChain f p g ∧ IsAgg g

/-- What the rows of the bin `b` look up: the approximated features (`C35_exactly_direct_aggregations`), with their values by
definition at time `b`. -/
def lookedUp (env : Env) (features : List Feat) (b : Int) : Given :=
  ⟨gatherApproximate features, fun g id => valuesAt env [g] g.entity b id⟩

/-- No aggregation is left besides the approximated ones. -/
def OnlyApproximated (features : List Feat) : Prop :=
  ∀ ignored : List String, (∀ n, n ∈ ignored ↔ ∃ p g, Approximated features p g ∧ n = g.uniqueName) →
    ∀ f ∈ features, ¬ IsAgg f ∧ ∀ d, Uses ignored f d → ¬ IsAgg d

/-- The conditions for a row in the bin `b` whose remaining features are computed with the data of `rest`. -/
structure ApproxOk (env : Env) (features : List Feat) (e : String) (rest : Env) (b : Int) : Prop where
  /-- the remaining features are regular, the approximated ones being given -/
  remaining : RegularFor rest features (lookedUp env features b) e
  /-- the approximated features are regular at the time of the bin -/
  own : ∀ p gs, gs ≠ [] → (∀ g ∈ gs, Approximated features p g) → RegularAt env gs (pathEnd e p) b
  /-- they have one output each -/
  single : ∀ p g, Approximated features p g → SingleOutput g
  /-- on the way to them no entity is linked by its own index -/
  links : ∀ p g, Approximated features p g → ∀ x ∈ p, x.2.childV ≠ indexOf env x.2.childE

/-- `bin` tells the bin of every time: for a span of one fixed unit the largest multiple of the span that is not later, for
a number the time itself. -/
def Bins : Approx → (Int → Int) → Prop
  | .int n, bin => n ≠ 0 ∧ ∀ t, bin t = t
  | .delta span, bin => ∃ u v ns, span.times = [(u, v)] ∧ nsOf u = some ns ∧ 0 < v ∧ ∀ t, IsFloor (v * ns) t (bin t)

end FT.Spec
