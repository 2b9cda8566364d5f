import Verif.Spec.Dfs
import Verif.Spec.Match
import Verif.Spec.Schema
import Verif.Model.DfsRun
/-! Specification of what a call of Deep Feature Synthesis has to find, independent of the search. -/
namespace FT.Spec
open FT

/-- `n` steps are within the limit of the call: `max_depth`, where -1 is no limit; for a single entity at most one step. -/
def WithinLimit (ents : List DEnt) (maxDepth : Int) (n : Nat) : Prop :=
  (maxDepth ≠ -1 → (n : Int) ≤ maxDepth) ∧ (ents.length = 1 → n ≤ 1)

/-- A column, as a feature. -/
def column (d : DEnt) (v : DVar) : DFeat := .mk (.identity v.id v.type) d.id v.name [] []

/-- `f` is a column of the entity `e` which is not ignored; no other column of the entity and no seed feature has its name. -/
def UsableColumn (ents : List DEnt) (a : DfsArgs) (e : String) (f : DFeat) : Prop :=
  ∃ d v, ents.find? (fun d => d.id == e) = some d ∧ v ∈ d.vars ∧ f = column d v ∧ (∀ v' ∈ d.vars, v'.name = v.name → v' = v) ∧
    (∀ vs, a.ignoreVariables.lookup e = some vs → v.name ∉ vs) ∧ ∀ g ∈ a.seeds, g.uname ≠ f.uname

/-- `f` is a column by which one of the relationships links. -/
def LinkColumn (rs : List Relationship) (f : DFeat) : Prop :=
  ∃ r ∈ rs, ∃ v t, f.kind = .identity v t ∧ ((r.childE = f.entity ∧ r.childV = v) ∨ (r.parentE = f.entity ∧ r.parentV = v))

/-- A name that is neither that of the index column of the target nor that of a seed feature of the target. -/
def FreeName (ents : List DEnt) (a : DfsArgs) (n : String) : Prop :=
  (∀ d, ents.find? (fun d => d.id == a.target) = some d → ∀ v ∈ d.vars, v.id = d.index → v.name ≠ n) ∧
    ∀ f ∈ a.seeds, f.entity = a.target → f.name ≠ n

/-- A path of entities the user allows. -/
def AllowedPath (a : DfsArgs) (es : List String) : Prop := a.allowedPaths = [] ∨ es ∈ a.allowedPaths

/-- A feature of one output that has no name of an output of another one. -/
def OneOutput (L : Lang) (f : DFeat) : Prop := f.outputs = 1 ∧ ∀ g i, L.namer.slice g i ≠ f.name

/-- `f` is output number `i` of `g`, a feature of several outputs; outputs of the same name are outputs of the same number of features
of the same name. -/
def OutputOf (L : Lang) (g : DFeat) (i : Nat) (f : DFeat) : Prop :=
  1 < g.outputs ∧ i < g.outputs ∧ f = .mk (.slice i) g.entity (L.namer.slice g i) [g] [] ∧
    ∀ g' j, L.namer.slice g' j = L.namer.slice g i → g'.name = g.name ∧ j = i

/-- What primitives can be applied to, given the features `P`: those of one output, and each output of those of several, if it does not
have the name of one of the features. -/
def Offered (L : Lang) (P : DFeat → Prop) (f : DFeat) : Prop :=
  (P f ∧ OneOutput L f) ∨ ∃ g i, P g ∧ OutputOf L g i f ∧ ∀ g', P g' → g'.name ≠ f.name

/-- Nothing `f` is made of is ignored, and the primitive has no options of its own. -/
def NothingIgnored (a : DfsArgs) (p : Prim) (f : DFeat) : Prop :=
  NoOptions a.options p ∧ ∀ g, DepUses [] f g → g.entity ∉ a.ignoreEntities ∧
    ((∃ v t, g.kind = .identity v t) → ∀ vs, a.ignoreVariables.lookup g.entity = some vs → g.name ∉ vs)

/-- A descendant the search is sure to visit first: without limits on depth and paths any descendant no link to which is ignored;
otherwise a child. -/
def SureBelow (a : DfsArgs) (c : String) (chain : List Relationship) : Prop :=
  (a.maxDepth = -1 ∧ a.allowedPaths = [] ∧ ∀ q ∈ chain, q.childE ∉ a.ignoreEntities) ∨
    (chain.length = 1 ∧ a.maxDepth ≠ 0 ∧ c ∉ a.ignoreEntities ∧ AllowedPath a [a.target, c])

/-- Nothing but primitives that are no transform primitives made `f`, or what it is taken from; if it is one of several outputs, then of
an aggregation. -/
def NotTransformed (f : DFeat) : Prop :=
  (∀ q, f.kind ≠ .trans q ∧ f.kind ≠ .groupby q) ∧ (∀ i, f.kind = .slice i → ∀ b ∈ f.bases, ∃ path p, b.kind = .agg path p) ∧ (∀ q, MadeBy q f → q.transform = false) ∧
    ∀ q, f.kind = .direct q → ∀ b ∈ f.bases, ∀ q', MadeBy q' b → q'.transform = false

/-- No condition is used by `f`. -/
def NoWhere (f : DFeat) : Prop := ∀ g, DepUses [] f g → ¬IsWhere g

/-- `f` is among the features the call builds for the entity `c`. -/
def BuiltFor (L : Lang) (equalScalar : Val → Prim) (ents : List DEnt) (rels : List Relationship) (a : DfsArgs) (c : String) (f : DFeat) : Prop :=
  ∃ S st fs, configure L equalScalar ents rels a = .ok S ∧ allFeatures S a.target (effectiveDepth S a.maxDepth) = .ok st ∧
    (c, fs) ∈ st.feats ∧ f ∈ fs

end FT.Spec
