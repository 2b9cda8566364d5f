import Verif.Model.Feature
/-! # What it means for a feature to depend on another -/
namespace FT.Spec

/-- `g` is used, directly or through other features, to compute `f`; ignored features are not entered. -/
inductive Uses (ignored : List String) : Feat → Feat → Prop
  | direct {f d} : d ∈ f.bases ∨ d ∈ f.wh → d.uniqueName ∉ ignored → Uses ignored f d
  | deep {f d g} : d ∈ f.bases ∨ d ∈ f.wh → d.uniqueName ∉ ignored → Uses ignored d g → Uses ignored f g

/-- Identity features are leaves (their constructor passes no base features). -/
def IdentityLeaf (f : Feat) : Prop := f.isIdentity = true → f.bases = [] ∧ f.wh = []

/-- `n` is the largest of the numbers `a d` for `d` in the list, or 0 for the empty list. -/
def IsMax {α : Type} (a : α → Nat) (l : List α) (n : Nat) : Prop :=
  (∀ d ∈ l, a d ≤ n) ∧ ((l = [] ∧ n = 0) ∨ ∃ d ∈ l, a d = n)

end FT.Spec
