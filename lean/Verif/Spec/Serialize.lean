import Verif.Model.Serialize
import Verif.Spec.EntitySetEq
import Verif.Spec.LastTime
/-! # Entity sets that can be written and read back -/
namespace FT.Spec

/-- An entity that can be written and read back: its data is of the types of its variables, sorted by time, its columns are
its variables, the index first; names and class parameters of variables are the default ones, and types are registered. -/
structure DescribableEntity (lib : Lib) (json : Json) (time : TimeType) (x : Entity) : Prop where
  varIds : (x.vars.map Var.id).Nodup
  cols : x.df.cols = x.vars.map Var.id
  indexFirst : ∃ v rest, x.vars = v :: rest ∧ v.id = x.index ∧ v.type = "index"
  names : ∀ v ∈ x.vars, v.name = none ∨ v.name = some v.id
  params : ∀ v ∈ x.vars, v.params = []
  known : ∀ v ∈ x.vars, lib.known v.type = true
  interesting : ∀ v ∈ x.vars, json.read v.interesting = v.interesting ∧ (json.discrete v.type = true → v.interesting.Nodup)
  unique : (x.df.rows.map fun r => r x.index).Nodup
  timeVar : ∀ t, x.timeIndex = some t → t ≠ x.index ∧ lib.timeType x.df t = some time ∧ x.df.rows.Pairwise (InOrder (some t) x.index) ∧
    ∃ v ∈ x.vars, v.id = t ∧ v.type = if lib.isDatetime x.df t then "datetime_time_index" else "numeric_time_index"
  secondary : ∀ p ∈ x.secondary, x.timeIndex ≠ none ∧ p.1 ∈ x.vars.map Var.id ∧ p.1 ∈ p.2 ∧ lib.timeType x.df p.1 = some time
  types : lib.infer x.df [] (x.vars.map fun v => (v.id, v.type)) x.timeIndex x.secondary = []
  data : lib.convert x.df (x.vars.map fun v => (v.id, v.type)) = .ok x.df

/-- An entity set that can be written and read back: every entity is, and relationships link an index with a variable of
class `Id` with the same dtype. -/
structure Describable (lib : Lib) (json : Json) (time : TimeType) (es : ESet) : Prop where
  schema : SchemaOk es
  entities : ∀ x ∈ es.entities, DescribableEntity lib json time x
  links : ∀ r ∈ es.rels, ∀ p ∈ es.entities, p.id = r.parentE → ∀ c ∈ es.entities, c.id = r.childE →
    (∃ v ∈ c.vars, v.id = r.childV ∧ v.type = "id") ∧ p.df.dtype r.parentV = c.df.dtype r.childV
  lti : (∀ x ∈ es.entities, x.lti = none) ∨ ∀ x ∈ es.entities, x.lti ≠ none
  object : lib.numeric "object" = false

/-- An entity read back is the same to its users: ids, index, time indexes, data, whether there is a last time index, and for
every variable, in order, its id, type, name, description and interesting values. -/
structure ReadBack (x y : Entity) : Prop where
  id : y.id = x.id
  index : y.index = x.index
  timeIndex : y.timeIndex = x.timeIndex
  secondary : y.secondary = x.secondary
  df : y.df = x.df
  lti : y.lti = none ↔ x.lti = none
  vars : y.vars.map (fun v => (v.id, v.type, v.name.getD v.id, v.interesting, v.desc.getD ("the \"" ++ v.name.getD v.id ++ "\""))) =
    x.vars.map (fun v => (v.id, v.type, v.name.getD v.id, v.interesting, v.desc.getD ("the \"" ++ v.name.getD v.id ++ "\"")))

end FT.Spec
