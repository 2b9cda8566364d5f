import Verif.Model.Graph
/-! # Words of the property about lineage graphs -/
namespace FT.Spec

/-- The feature whose calculation is shown: one of several outputs is calculated with the others. -/
def shownSource (f : Feat) : Feat :=
  match f.kind, f.bases with
  | .slice _, b :: _ => b
  | _, _ => f

/-- `f` is calculated from `g`: an input, a condition or what is grouped by. -/
def CalcFrom (f g : Feat) : Prop := g ∈ (shownSource f).bases ∨ g ∈ (shownSource f).wh

/-- `f` is `n` steps upstream of `t`. -/
inductive UpstreamAt (t : Feat) : Nat → Feat → Prop
  | self : UpstreamAt t 0 t
  | step {n f g} : UpstreamAt t n f → CalcFrom f g → UpstreamAt t (n + 1) g

/-- `t` is `f` or is calculated from it, directly or not. -/
def Upstream (t f : Feat) : Prop := ∃ n, UpstreamAt t n f

/-- What features always meet (`leaf`, `group`: the assertions of the constructors), and that entity and name tell the features
upstream of `t` from each other and from the columns that link the entities. -/
structure GraphFit (t : Feat) : Prop where
  leaf : ∀ f, Upstream t f → f.isIdentity = true → f.bases = [] ∧ f.wh = []
  group : ∀ f, Upstream t f → ∀ p, (shownSource f).kind = .groupby p → (shownSource f).wh = [] ∧ ∀ b ∈ (shownSource f).bases, b.entity = (shownSource f).entity
  names : ∀ f g, Upstream t f → Upstream t g → f.entity = g.entity → f.name = g.name → f = g
  links : ∀ f g step, Upstream t f → Upstream t g → step ∈ f.path → g.entity = step.2.childE → g.name = step.2.childV → g.isIdentity = true

/-- There is a row for this name in the table of this entity. -/
def HasRow (s : Graph) (e n : String) : Prop := (e, n) ∈ s.vars ∨ (e, n) ∈ s.feats

/-- Arrows, and dotted lines into a "group by" box, lead from one node to another. -/
inductive Leads (s : Graph) : GNode → GNode → Prop
  | refl {a} : Leads s a a
  | arrow {a b c} : (a, b) ∈ s.solid → Leads s b c → Leads s a c
  | box {a f e v c} : (a, .group f e v) ∈ s.dotted → Leads s (.group f e v) c → Leads s a c

/-- The node of a feature. -/
def featRow (f : Feat) : GNode := .row f.entity f.name

/-- The name of the primitive on the diamond of a feature. -/
def DiamondName (primName : Feat → String) (f : Feat) (p : String) : Prop :=
  match f.kind with
  | .identity _ => False
  | .direct _ => p = "join"
  | _ => p = primName f ∧ p ≠ ""

/-- The kind of primitive on the diamond of a feature: none is written for direct features. -/
def DiamondKind (f : Feat) (word : String) : Prop :=
  ((∃ p q r u, f.kind = .agg p q r u) ∧ word = "Aggregation") ∨ ((∃ p, f.kind = .trans p ∨ f.kind = .groupby p) ∧ word = "Transform") ∨
  ((∃ r, f.kind = .direct r) ∧ word = "") ∨ ((∃ n, f.kind = .slice n) ∧ word = "")

/-- A feature with a primitive has an input besides what it groups by, as the constructors and the types of primitives ensure. -/
def HasInput (f : Feat) : Prop :=
  match (shownSource f).kind with
  | .groupby _ => 2 ≤ (shownSource f).bases.length
  | _ => (shownSource f).bases ≠ [] ∨ (shownSource f).wh ≠ []

/-- Nothing is grouped by a feature that has to be calculated first. -/
def GroupsByColumns (t : Feat) : Prop :=
  ∀ f g p, Upstream t f → (shownSource f).kind = .groupby p → (shownSource f).bases.getLast? = some g → g.isIdentity = true

/-- The names of the features that are calculated, without their entities, tell them apart. -/
def SourcesTold (t : Feat) : Prop :=
  ∀ f g, Upstream t f → Upstream t g → f.isIdentity = false → g.isIdentity = false → (shownSource f).name = (shownSource g).name → shownSource f = shownSource g

/-- No feature that is calculated is used at two distances from the target. -/
def OneDistance (t : Feat) : Prop :=
  ∀ f g m n, UpstreamAt t m f → UpstreamAt t n g → f.isIdentity = false → shownSource f = shownSource g → m = n

/-- The diamond of a feature. -/
def DiamondOf (s : Graph) (f : Feat) (d : GDiamond) : Prop := d ∈ s.prims ∧ (d.node, featRow f) ∈ s.solid

end FT.Spec
