import Verif.Spec.Pipeline
import Verif.Spec.Dfs
import Verif.Spec.FeatureFile
import Verif.Model.DfsRun
/-! # When the features of `dfs` can be saved -/
namespace FT.Spec
open FT

/-- No two different features that are used have one entity and name. -/
def FeaturesTold (fs : List DFeat) : Prop :=
  ∀ f ∈ fs, ∀ f' ∈ fs, ∀ g g', MadeOf f g → MadeOf f' g' → g.entity ++ ": " ++ g.name = g'.entity ++ ": " ++ g'.name → g = g'

/-- No group-by feature that is used is grouped by one of its own inputs. -/
def GroupedByOther (fs : List DFeat) : Prop :=
  ∀ f ∈ fs, ∀ g, MadeOf f g → ∀ p inputs by_, g.kind = .groupby p → g.bases = inputs ++ [by_] → by_ ∉ inputs

/-- `desc` has every variable of `es`, with its type. -/
def HasVars (es desc : ESet) : Prop :=
  ∀ x ∈ es.entities, ∃ y, (desc.entities.find? fun y => y.id == x.id) = some y ∧
    ∀ v ∈ x.vars, ∃ w, (y.vars.find? fun w => w.id == v.id) = some w ∧ w.type = v.type

/-- Relationships link variables that are there. -/
def LinksThere (es : ESet) : Prop :=
  ∀ r ∈ es.rels, (∃ x ∈ es.entities, x.id = r.parentE ∧ ∃ v ∈ x.vars, v.id = r.parentV) ∧
    ∃ x ∈ es.entities, x.id = r.childE ∧ ∃ v ∈ x.vars, v.id = r.childV

/-- The feature has this primitive. -/
def UsesPrim (g : DFeat) (p : Prim) : Prop := (∃ path, g.kind = .agg path p) ∨ g.kind = .trans p ∨ g.kind = .groupby p

/-- A feature as the constructors of the feature classes make it on the entity set; `cls` gives the class of a type string. -/
def MadeOn (cls : String → String) (es : ESet) (g : DFeat) : Prop :=
  match g.kind with
  | .identity v t => g.bases = [] ∧ g.wh = [] ∧ ∃ x ∈ es.entities, x.id = g.entity ∧ ∃ y ∈ x.vars, y.id = v ∧ cls y.type = t
  | .direct r => ∃ b, g.bases = [b] ∧ g.wh = [] ∧ b.entity = r.parentE ∧ g.entity = r.childE ∧ r ∈ es.rels
  | .agg path _ => g.bases ≠ [] ∧ g.wh.length ≤ 1 ∧ (∀ x ∈ path, x.1 = false ∧ x.2 ∈ es.rels) ∧
      (∃ x, path.head? = some x ∧ g.entity = x.2.parentE) ∧
      ∃ x, path.getLast? = some x ∧ (∀ b ∈ g.bases, b.entity = x.2.childE) ∧ ∀ w ∈ g.wh, w.entity = x.2.childE
  | .trans _ => g.bases ≠ [] ∧ g.wh = [] ∧ ∀ b ∈ g.bases, b.entity = g.entity
  | .groupby _ => g.bases ≠ [] ∧ g.wh = [] ∧ ∀ b ∈ g.bases, b.entity = g.entity
  | .slice _ => ∃ b, g.bases = [b] ∧ g.wh = [] ∧ g.entity = b.entity

/-- The seed features, and what they are made of, are features of the entity set. -/
def SeedsMadeOn (cls : String → String) (es : ESet) (seeds : List DFeat) : Prop := ∀ s ∈ seeds, ∀ g, MadeOf s g → MadeOn cls es g

/-- A primitive of the call or of a seed feature, or a comparison with an interesting value. -/
def PrimOfCall (equalScalar : Val → Prim) (es : ESet) (a : DfsArgs) (p : Prim) : Prop :=
  p ∈ a.aggs ∨ p ∈ a.trans ∨ p ∈ a.groupbys ∨ (∃ x ∈ es.entities, ∃ v ∈ x.vars, ∃ i ∈ v.interesting, p = equalScalar i) ∨
    ∃ s ∈ a.seeds, ∃ g, MadeOf s g ∧ UsesPrim g p

/-- The primitives can be stored: their classes are found again, and class and arguments make them up. -/
structure PrimsStorable (P : Prim → PInst) (Q : PInst → Prim) (root : ClassTree) (used : Prim → Prop) : Prop where
  same : ∀ p, used p → Q (P p) = p
  found : ∀ p, used p → Storable root (P p)

end FT.Spec
