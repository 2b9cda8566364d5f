import Verif.Model.FeatureFile
import Verif.Spec.PrimFile
/-! Specification of features that can be saved. -/
namespace FT.Spec
open FT

/-- `f` is, or uses at some depth, `g`. -/
inductive SUses : SFeat → SFeat → Prop
  | self (f : SFeat) : SUses f f
  | dep {f d g : SFeat} : d ∈ f.bases ∨ d ∈ f.wh → SUses d g → SUses f g

/-- A relationship between variables of the entity set. -/
def RelThere (known : Known) (r : Relationship) : Prop := known r.parentE r.parentV = true ∧ known r.childE r.childV = true

/-- A feature as the constructors of the feature classes make it, on the entity set. -/
def Built (known : Known) (f : SFeat) : Prop :=
  match f.kind with
  | .identity v => f.bases = [] ∧ f.wh = [] ∧ known f.entity v = true
  | .direct r => ∃ b, f.bases = [b] ∧ f.wh = [] ∧ b.entity = r.parentE ∧ f.entity = r.childE ∧ RelThere known r
  | .agg path _ prev => f.bases ≠ [] ∧ f.wh.length ≤ 1 ∧
      (∃ r, path.head? = some r ∧ f.entity = r.parentE) ∧
      (∃ r, path.getLast? = some r ∧ (∀ b ∈ f.bases, b.entity = r.childE) ∧ ∀ w ∈ f.wh, w.entity = r.childE) ∧
      (∀ r ∈ path, RelThere known r) ∧ ∀ td, prev = some td → ∃ times, Timedelta.make times = .ok td
  | .trans _ => f.bases ≠ [] ∧ f.wh = [] ∧ ∀ b ∈ f.bases, b.entity = f.entity
  | .groupby _ => f.bases ≠ [] ∧ f.wh = [] ∧ ∀ b ∈ f.bases, b.entity = f.entity
  | .slice _ => ∃ b, f.bases = [b] ∧ f.wh = [] ∧ f.entity = b.entity

/-- The class of the primitive is there once, and no argument is a Boolean equal to a numeric default (`C49`). -/
def Storable (root : ClassTree) (p : PInst) : Prop :=
  InTree root p.cls ∧ (∀ c, InTree root c → c.key = p.cls.key → c = p.cls) ∧ (p.cls.params.map Prod.fst).Nodup ∧
    p.cls.params.length = p.args.length ∧
    ∀ (i : Nat) n d b, p.cls.params[i]? = some (n, some (.num d)) → p.args[i]? = some (.bool b) → d ≠ if b then 1 else 0

/-- The feature has this primitive. -/
def HasPrim (f : SFeat) (p : PInst) : Prop := (∃ path prev, f.kind = .agg path p prev) ∨ f.kind = .trans p ∨ f.kind = .groupby p

/-- The feature by which a group-by feature groups is not among its inputs as well. -/
def GroupedApart (f : SFeat) : Prop := ∀ p init g, f.kind = .groupby p → f.bases = init ++ [g] → g ∉ init

/-- No two different features that are used have one entity and name. -/
def FullNamesTell (fs : List SFeat) : Prop :=
  ∀ f ∈ fs, ∀ f' ∈ fs, ∀ g g', SUses f g → SUses f' g' → g.entity ++ ": " ++ g.name = g'.entity ++ ": " ++ g'.name → g = g'

end FT.Spec

namespace FT.Spec
open FT

/-- Everything the feature refers to is in the entity set, at every depth. -/
def Grounded (known : Known) (f : SFeat) : Prop :=
  ∀ g, SUses f g → (∀ v, g.kind = .identity v → known g.entity v = true) ∧ (∀ r, g.kind = .direct r → RelThere known r) ∧
    ∀ path p prev, g.kind = .agg path p prev → ∀ r ∈ path, RelThere known r

/-- The class and name in a stored definition are those of the feature. -/
def Describes (d : SDef) (f : SFeat) : Prop :=
  match d.args with
  | .identity n v e => f = .mk (.identity v) e n [] []
  | .direct n _ r => f.name = n ∧ f.kind = .direct r
  | .agg n bs path _ _ _ => f.name = n ∧ (∃ p prev, f.kind = .agg path p prev) ∧ f.bases.length = bs.length
  | .trans n bs _ => f.name = n ∧ (∃ p, f.kind = .trans p) ∧ f.bases.length = bs.length
  | .groupby n bs _ _ => f.name = n ∧ (∃ p, f.kind = .groupby p) ∧ f.bases.length = bs.length + 1
  | .slice n _ i => f.name = n ∧ f.kind = .slice i
  | .other _ => False

end FT.Spec
