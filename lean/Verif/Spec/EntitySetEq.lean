import Verif.Model.EntitySetEq
import Verif.Spec.EntitySet
/-! # What is expected of comparing and concatenating entity sets -/
namespace FT.Spec

/-- Ids and secondary time indexes are dictionaries: keys are distinct. -/
structure Dicts (es : ESet) : Prop where
  ids : (es.entities.map Entity.id).Nodup
  secondary : ∀ x ∈ es.entities, (x.secondary.map Prod.fst).Nodup

/-- Two entities agree on index, time indexes and variables with their types. -/
structure SameEntity (x y : Entity) : Prop where
  index : x.index = y.index
  timeIndex : x.timeIndex = y.timeIndex
  secondary : ∀ p, p ∈ x.secondary ↔ p ∈ y.secondary
  count : x.vars.length = y.vars.length
  vars : ∀ i t, (∃ v ∈ x.vars, v.id = i ∧ v.type = t) ↔ ∃ v ∈ y.vars, v.id = i ∧ v.type = t

/-- Two entity sets have the same ids and agree on every entity. -/
def SameEntities (a b : ESet) : Prop :=
  (∀ e, e ∈ a.entities.map Entity.id ↔ e ∈ b.entities.map Entity.id) ∧
    ∀ x ∈ a.entities, ∀ y ∈ b.entities, x.id = y.id → SameEntity x y

/-- The order of cells: by kind, then by value; missing values last. -/
def ValLe : Val → Val → Prop
  | .num x, .num y => x ≤ y
  | .str x, .str y => x ≤ y
  | .bool x, .bool y => x = true → y = true
  | .num _, _ => True
  | .str _, .bool _ => True
  | .str _, .null => True
  | .bool _, .null => True
  | .null, .null => True
  | _, _ => False

/-- Rows in order of time, and of index at the same time; without a time index, of index. -/
def InOrder (time : Option String) (index : String) (a b : Row) : Prop :=
  match time with
  | some t => if a t = b t then ValLe (a index) (b index) else ValLe (a t) (b t)
  | none => ValLe (a index) (b index)

end FT.Spec
