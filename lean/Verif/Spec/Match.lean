import Verif.Model.Synth
/-! Specification of the inputs a primitive may get, independent of how they are searched for. -/
namespace FT.Spec
open FT

/-- Position by position, the type of the feature is a kind of the type asked for. -/
def Fits (sub : String → String → Bool) : List String → List DFeat → Prop
  | [], [] => True
  | ty :: tys, f :: fs => sub f.vtype ty = true ∧ Fits sub tys fs
  | _, _ => False

/-- `t` is an input for the types: it fits, is made of the given features, uses none of them twice, and holds a direct
feature if one is required. -/
structure IsInput (sub : String → String → Bool) (types : List String) (features : List DFeat) (required : Bool)
    (t : List DFeat) : Prop where
  fits : Fits sub types t
  given : ∀ f ∈ t, f ∈ features
  different : t.Pairwise fun a b => a.uname ≠ b.uname
  direct : required = true → ∃ f ∈ t, ∃ r, f.kind = .direct r

/-- Features are told apart by their unique name. -/
def Distinct (features : List DFeat) : Prop := features.Pairwise fun a b => a.uname ≠ b.uname

end FT.Spec
