import Verif.Model.DfsRun
import Verif.Spec.Schema
namespace FT.Spec

/-- The primitives that make features. -/
def MakesWith (a : DfsArgs) (p : Prim) : Prop := p ∈ a.aggs ∨ p ∈ a.trans ∨ p ∈ a.groupbys

/-- A request that makes sense: the target is an entity of the entity set and is not ignored, relationships connect entities of
the set and do not lead round in a circle, aggregations and transformations are given as such, the depth is a number or -1, and
every primitive takes something, of types among those it accepts.  Options are not empty. -/
structure WellAsked (ents : List DEnt) (rels : List Relationship) (a : DfsArgs) : Prop where
  target : ∃ d ∈ ents, d.id = a.target
  kept : a.target ∉ a.ignoreEntities
  known : ∀ r ∈ rels, (∃ d ∈ ents, d.id = r.childE) ∧ ∃ d ∈ ents, d.id = r.parentE
  acyclic : Acyclic rels
  aggs : ∀ p ∈ a.aggs, p.transform = false
  trans : ∀ p, p ∈ a.trans ∨ p ∈ a.groupbys → p.transform = true
  depth : a.maxDepth = -1 ∨ 0 ≤ a.maxDepth
  takes : ∀ p, MakesWith a p → p.inputs ≠ [] ∧ p.inputs ∈ p.alts
  options : ∀ x ∈ a.options, x.2 ≠ []

/-- What the code cannot do although a user may ask for it: the inputs of a commutative primitive are of one type, and no
primitive is declared to keep others from being based on it. -/
structure Manageable (a : DfsArgs) : Prop where
  alike : ∀ p, MakesWith a p → p.commutative = true → ∀ x ∈ p.inputs, ∀ y ∈ p.inputs, x = y
  prims : ∀ p, MakesWith a p → p.baseOfExclude = none
  seeds : ∀ f ∈ a.seeds, f.prim.baseOfExclude = none

end FT.Spec
