import Verif.Spec.LastTime
import Verif.Spec.EntitySetEq
/-! # Last time indexes after some data changed -/
namespace FT.Spec

/-- An entity is one of the given ones, a parent of one and so on, or a child, a child of a child, and so on, of such an
entity: the last time indexes of these are worked out. -/
inductive Renewed (es : ESet) (updated : List String) : String → Prop
  | above {e : String} (h : Above es updated e) : Renewed es updated e
  | child {e : String} {r : Relationship} (h : Renewed es updated e) (hr : r ∈ es.rels) (hp : r.parentE = e) : Renewed es updated r.childE

/-- The entity has a last time index in one of two entity sets. -/
def TimedIn (a b : ESet) (e : String) : Prop :=
  (∃ x ∈ a.entities, x.id = e ∧ x.lti ≠ none) ∨ ∃ y ∈ b.entities, y.id = e ∧ y.lti ≠ none

end FT.Spec
