import Verif.Model.PrimFile
/-! Specification of the classes below a class. -/
namespace FT.Spec
open FT

/-- The class is at the root of the tree or below it. -/
inductive InTree : ClassTree → PClass → Prop
  | root (c : PClass) (subs : List ClassTree) : InTree (.node c subs) c
  | sub {c c' : PClass} {subs : List ClassTree} {t : ClassTree} : t ∈ subs → InTree t c' → InTree (.node c subs) c'

end FT.Spec
