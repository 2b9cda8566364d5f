import Verif.Spec.Feature
import Verif.Model.FeatureSet
/-! # What the plan and the groups should contain -/
namespace FT.Spec

/-- `f` itself or something it uses. -/
def Needs (f g : Feat) : Prop := g = f ∨ Uses [] f g

/-- All features needed for a list of features. -/
def NeededBy (fs : List Feat) (g : Feat) : Prop := ∃ f ∈ fs, Needs f g

/-- Unique names identify the features needed for `fs`. -/
def NamesIdentify (fs : List Feat) : Prop :=
  ∀ a b, NeededBy fs a → NeededBy fs b → a.uniqueName = b.uniqueName → a = b

/-- `d` is a dependency of `f` that lives on the same entity as `f`: it is reached from `f` through features
that are computed without following a relationship (the last one, `d`, may follow one). -/
inductive SameEntityDep : Feat → Feat → Prop
  | direct {f d} : f.path = [] → d ∈ f.bases ∨ d ∈ f.wh → SameEntityDep f d
  | deep {f d g} : f.path = [] → d ∈ f.bases ∨ d ∈ f.wh → SameEntityDep d g → SameEntityDep f g

/-- `use_previous` with a single unit; windows of several units are told apart from windows of a single unit only. -/
def singleUnit : Option (Dict Int) → Option (String × Int)
  | some [x] => some x
  | _ => none

/-- The unit of a single-unit `use_previous` has a name. -/
def NamedUnit (f : Feat) : Prop := ∀ p prim v u, f.kind ≠ .agg p prim (some [("", v)]) u

/-- Two features are of one class, have the same relationship path name and, as far as their class has it, the same
condition, `use_previous`, use of the full entity and group-by feature. -/
def Alike (rels : List Relationship) (a b : Feat) : Prop :=
  a.pathName rels = b.pathName rels ∧
  match a.kind, b.kind with
  | .identity _, .identity _ => True
  | .direct _, .direct _ => True
  | .agg _ _ pa _, .agg _ _ pb _ => a.wh.head?.map Feat.uniqueName = b.wh.head?.map Feat.uniqueName ∧ singleUnit pa = singleUnit pb
  | .trans p, .trans q => p.usesFull = q.usesFull
  | .groupby p, .groupby q => p.usesFull = q.usesFull ∧ a.bases.getLast?.map Feat.uniqueName = b.bases.getLast?.map Feat.uniqueName
  | .slice _, .slice _ => True
  | _, _ => False

/-- The position of the group that contains a feature. -/
def InGroup (groups : List (List Feat)) (i : Nat) (f : Feat) : Prop := ∃ g, groups[i]? = some g ∧ f ∈ g

/-- A dependency, with an output slice replaced by the feature it is a slice of. -/
def unslice (d : Feat) : Option Feat :=
  match d.kind with
  | .slice _ => d.bases.head?
  | _ => some d

/-- `Planned targets hidden p f full`: feature `f` is needed at relationship path `p` for the targets, and `full` tells
whether `f` or a feature on the way to it needs the full entity. Features in `hidden p` are approximated at path `p`:
neither they nor what only they need are planned. -/
inductive Planned (targets : List Feat) (hidden : List Edge → List String) : List Edge → Feat → Bool → Prop
  | target {f} : f ∈ targets → f.uniqueName ∉ hidden [] → Planned targets hidden [] f f.usesFull
  | dep {p f full d e} : Planned targets hidden p f full → d ∈ f.bases ∨ d ∈ f.wh → unslice d = some e →
      e.uniqueName ∉ hidden (p ++ f.path) → Planned targets hidden (p ++ f.path) e (full || e.usesFull)

/-- The names approximated at each path, as recorded in a trie. -/
def hiddenBy (approx : ATrie) (p : List Edge) : List String := (Trie.nodeAt [] p approx).value

/-- The value the plan stores at a path. -/
def planAt (t : FTrie) (p : List Edge) : NodeVal := (Trie.nodeAt NodeVal.empty p t).value

/-- `f` is a direct feature; following direct features from `f` along the path `p` ends at `g`, which is not direct. -/
inductive DirectChain : Feat → RelPath → Feat → Prop
  | last {f r b bs} : f.kind = .direct r → f.bases = b :: bs → (∀ r', b.kind ≠ .direct r') → DirectChain f [(true, r)] b
  | more {f r b bs p g} : f.kind = .direct r → f.bases = b :: bs → DirectChain b p g → DirectChain f ((true, r) :: p) g

/-- The feature itself, or a feature needed for the targets that depends on it, is computed on the full entity. -/
def FullEntityInvolved (targets : List Feat) (f : Feat) : Prop :=
  f.usesFull = true ∨ ∃ g, NeededBy targets g ∧ g.usesFull = true ∧ ∃ d, Uses [] g d ∧ d.uniqueName = f.uniqueName

end FT.Spec
