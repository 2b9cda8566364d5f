import Verif.Spec.NoLeak
import Verif.Spec.Dfs
import Verif.Model.EntitySet
/-! # Entity sets with the same schema, and with the same data up to a time -/
namespace FT.Spec

/-- The two entity sets have the same relationships, and the same entities with the same index and variables (ids, types, names,
interesting values), in the same order. Nothing is said about the data. -/
structure SameSchema (es es' : ESet) : Prop where
  rels : es'.rels = es.rels
  entities : es'.entities.map (fun x => (x.id, x.index, x.vars)) = es.entities.map fun x => (x.id, x.index, x.vars)

/-- An entity as the words about visibility speak of it. -/
def dataOf (x : Entity) : Ent := ⟨x.id, x.index, x.timeIndex, x.secondary, x.lti, x.df.toTable⟩

/-- What the two entity sets show at time `t`, under the training window of the call, is the same: for every entity the visible rows
and the cells known at `t`. -/
def SameBefore (env : Env) (es es' : ESet) (t : Int) : Prop :=
  ∀ e, SameAt { env with timeLast := t } ((es.entities.find? fun x => x.id == e).map dataOf) ((es'.entities.find? fun x => x.id == e).map dataOf)

/-- Secondary time indexes do not hide each other's columns, nor an index, nor a column that links entities. -/
structure KeysNotSecondary (es : ESet) : Prop where
  apart : ∀ x ∈ es.entities, x.secondary.Pairwise fun s s' => s'.1 ∉ s.2
  index : ∀ x ∈ es.entities, ∀ s ∈ x.secondary, x.index ∉ s.2
  child : ∀ r ∈ es.rels, ∀ x ∈ es.entities, x.id = r.childE → ∀ s ∈ x.secondary, r.childV ∉ s.2
  parent : ∀ r ∈ es.rels, ∀ x ∈ es.entities, x.id = r.parentE → ∀ s ∈ x.secondary, r.parentV ∉ s.2

/-- The features a feature is made of, at any depth, and itself; conditions count. -/
def MadeOf (f g : DFeat) : Prop := DepUses [] f g

/-- The relationships a feature follows are among these. -/
def FollowsOnly (rels : List Relationship) (g : DFeat) : Prop :=
  (∀ r, g.kind = .direct r → r ∈ rels) ∧ ∀ path p, g.kind = .agg path p → ∀ x ∈ path, x.2 ∈ rels

/-- The seed features, and what they are made of, follow relationships of the entity set. -/
def SeedsFollow (es : ESet) (seeds : List DFeat) : Prop := ∀ s ∈ seeds, ∀ g, MadeOf s g → FollowsOnly es.rels g

end FT.Spec
