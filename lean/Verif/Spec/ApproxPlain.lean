import Verif.Spec.CfmApprox
import Verif.Spec.DfsMatrix
/-! # When features can be computed with `approximate` -/
namespace FT.Spec

/-- Features that can be computed for the entity `e`: entities have proper keys, every feature that is needed has the inputs and the
relationships the calculator expects, features brought down have one column, and different columns have different names. -/
structure Computable (env : Env) (features : List Feat) (e : String) : Prop where
  entityOk : EntityOk env e
  window : env.window.all Window.hasNoObservations = true
  target : ∀ f ∈ features, f.entity = e ∧ WholeFeature f
  wellFormed : ∀ g, NeededBy features g → WellFormed env g ∧ ∀ x ∈ g.path, x.2 ∈ env.rels
  /-- what a direct feature brings down has one column -/
  brought : ∀ f r, NeededBy features f → f.kind = .direct r → ∀ b ∈ f.bases, SingleOutput b
  /-- direct features are named by what they bring down -/
  direct : ∀ f g r, NeededBy features f → NeededBy features g → f.kind = .direct r → g.kind = .direct r → f.bases = g.bases → f.name = g.name
  apart : NamesApart env features

/-- The features can also be computed with `approximate`: no feature that is computed on the full entity is a feature of the entity
of an approximated one, or needs one, and on the way to the approximated features no entity is linked by its own index. -/
structure CanApproximate (env : Env) (features : List Feat) : Prop where
  full : ∀ p g, Approximated features p g → ∀ x, NeededBy features x → x.usesFull = true → ∀ d, Needs x d → d.entity ≠ g.entity
  links : ∀ p g, Approximated features p g → ∀ x ∈ p, x.2.childV ≠ indexOf env x.2.childE

end FT.Spec
