import Verif.Spec.Cfm
import Verif.Spec.Schema
import Verif.Model.DfsMatrix
/-!
# When the features of a synthesis can be computed

The conditions are about the data, the primitives and the names of columns. They do not mention how anything is computed.
-/
namespace FT.Spec

/-- `n` is a column that leads from an instance of entity `c` up the relationships `chain` (the nearest first): the foreign key of
the first one, or the name of the first parent, a dot, and a column that leads up the rest. -/
inductive LinkCol (rels : List Relationship) : String → String → List Relationship → Prop
  | key (r : Relationship) : r ∈ rels → LinkCol rels r.childE r.childV [r]
  | above (r : Relationship) {n : String} {chain : List Relationship} : r ∈ rels → LinkCol rels r.parentE n chain →
      LinkCol rels r.childE ((r.parentName? rels).getD "" ++ "." ++ n) (r :: chain)

/-- The feature is the foreign key of the last relationship of a chain, brought down along the others. -/
inductive KeyOf : Feat → List Relationship → Prop
  | column {f : Feat} (r : Relationship) : f.kind = .identity r.childV → f.entity = r.childE → KeyOf f [r]
  | down {f b : Feat} (r : Relationship) {chain : List Relationship} : f.kind = .direct r → f.bases = [b] → f.entity = r.childE →
      f.dflt = .null → KeyOf b chain → KeyOf f (r :: chain)

/-- A feature that is no output slice. -/
def WholeFeature (f : Feat) : Prop := ∀ n, f.kind ≠ .slice n

/-- Different columns have different names. -/
structure NamesApart (env : Env) (targets : List Feat) : Prop where
  /-- unique names identify features -/
  identify : NamesIdentify targets
  /-- two features of one entity have no column in common -/
  columns : ∀ f g, NeededBy targets f → NeededBy targets g → WholeFeature f → WholeFeature g → f.entity = g.entity → f ≠ g →
    ∀ n ∈ f.names, n ∉ g.names
  /-- no feature but the column itself has the name of a key column -/
  keys : ∀ f, NeededBy targets f → WholeFeature f → (∀ v, f.kind ≠ .identity v) → ∀ n ∈ f.names, n ∉ env.keyCols f.entity
  /-- features of one class and entity with the same path name have the same path -/
  paths : ∀ f g, NeededBy targets f → NeededBy targets g → WholeFeature f → WholeFeature g → f.entity = g.entity →
    className f = className g → f.pathName env.rels = g.pathName env.rels → f.path = g.path
  /-- no key column has the name of a column that leads to a grandparent or further up -/
  linkKeys : ∀ c n chain, LinkCol env.rels c n chain → 1 < chain.length → n ∉ env.keyCols c
  /-- a feature that has such a name is that very foreign key, and then nothing is computed on full entities -/
  linkFeatures : ∀ c n chain, LinkCol env.rels c n chain → 1 < chain.length → ∀ f, NeededBy targets f → WholeFeature f → f.entity = c →
    n ∈ f.names → KeyOf f chain ∧ ∀ g, NeededBy targets g → g.usesFull = false

/-- The data behind the description `ents` that the synthesis looks at: the entities are there with proper keys, variables are
columns, relationships link parents' indexes to foreign keys, and only at the top of a path is a parent reached in two ways. -/
structure DataFor (env : Env) (ents : List DEnt) : Prop where
  window : env.window.all Window.hasNoObservations = true
  entity : ∀ d ∈ ents, EntityOk env d.id
  column : ∀ d ∈ ents, ∀ v ∈ d.vars, v.name = v.id ∧ ∀ ent, env.ent d.id = some ent → v.id ∈ ent.df.cols
  related : ∀ r ∈ env.rels, RelOk env r
  oneLink : ∀ r ∈ env.rels, ∀ s ∈ env.rels, s.childE = r.parentE → r.parentName? env.rels = some r.parentE

/-- The primitives give as many outputs as they say; a transform that does not need the full entity works row by row; output
names differ. -/
structure PrimsOk (L : Lang) (equalScalar : Val → Prim) (R : Reading) (a : DfsArgs) : Prop where
  agg : ∀ p ∈ a.aggs, 0 < p.outputs ∧ ∀ t args, ((R.agg p).fn t args).length = p.outputs
  trans : ∀ p, p ∈ a.trans ∨ p ∈ a.groupbys ∨ (∃ v, p = equalScalar v) → 0 < p.outputs ∧ TransShape (R.trans p) p.outputs ∧
    ((R.trans p).usesFull = false → Elementwise (R.trans p) p.outputs)
  scalar : ∀ v, (equalScalar v).outputs = 1
  slices : ∀ f i j, L.namer.slice f i = L.namer.slice f j → i = j

/-- No transform or group-by feature takes an output of an aggregation or direct feature of several outputs. -/
def SlicesLocal (targets : List Feat) : Prop :=
  ∀ f, NeededBy targets f → ∀ p, (f.kind = .trans p ∨ f.kind = .groupby p) → ∀ d ∈ f.bases, ∀ n, d.kind = .slice n → d.path = []

/-- A condition of an aggregation of several inputs does not have the name of one of them. -/
def ConditionsApart (targets : List Feat) : Prop :=
  ∀ f, NeededBy targets f → 1 < f.bases.length → ∀ w ∈ f.wh, ∀ b ∈ f.bases, b.name ≠ w.name

/-- The seed features can be computed: they and what they are made of have the inputs, the relationships and the outputs the
calculator expects, none is one output of another feature, and features brought down have one column, named as the library
names it. -/
structure SeedsComputable (L : Lang) (env : Env) (seeds : List Feat) : Prop where
  whole : ∀ s ∈ seeds, WholeFeature s
  wellFormed : ∀ g, NeededBy seeds g → WellFormed env g ∧ ∀ x ∈ g.path, x.2 ∈ env.rels
  direct : ∀ g q, NeededBy seeds g → g.kind = .direct q → ∃ b, g.bases = [b] ∧ SingleOutput b ∧ g.name = L.namer.direct q b.name

/-- `read` gives a feature of the synthesis as the calculator sees it: entity, name, columns, default value, class, inputs and
condition are those the feature objects have. -/
structure ReadByName (R : Reading) (L : Lang) (rels : List Relationship) (read : DFeat → Feat) (f : DFeat) : Prop where
  entity : (read f).entity = f.entity
  name : (read f).name = f.name
  bases : (read f).bases = f.bases.map read
  wh : (read f).wh = f.wh.map read
  /-- one column with the name of the feature, or the numbered outputs -/
  one : f.outputs = 1 → (read f).names = [f.name]
  several : f.outputs ≠ 1 → (read f).names.length = f.outputs ∧ ∀ i, i < f.outputs → (read f).names[i]? = some (L.namer.slice f i)
  identity : ∀ v t, f.kind = .identity v t → (read f).kind = .identity v ∧ (read f).dflt = .null
  /-- a direct feature has the default of the feature it brings down -/
  direct : ∀ r, f.kind = .direct r → (read f).kind = .direct r ∧ ∀ b, f.bases.head? = some b → (read f).dflt = (read b).dflt
  /-- aggregations of everything along their path; the path appears in the name unless it is the only one -/
  agg : ∀ path p, f.kind = .agg path p → (read f).dflt = R.dflt p ∧ ∃ unique,
    (read f).kind = .agg (path.map Prod.snd) (R.agg p) none unique ∧
    ∀ base, Chain rels base f.entity (path.map Prod.snd).reverse → rels.Nodup →
      (unique = true ↔ ∃ q, SimpleChain rels base f.entity q ∧ ∀ q', SimpleChain rels base f.entity q' → q' = q)
  trans : ∀ p, f.kind = .trans p → (read f).kind = .trans (R.trans p) ∧ (read f).dflt = R.dflt p
  groupby : ∀ p, f.kind = .groupby p → (read f).kind = .groupby (R.trans p) ∧ (read f).dflt = R.dflt p
  slice : ∀ n, f.kind = .slice n → (read f).kind = .slice n

end FT.Spec
