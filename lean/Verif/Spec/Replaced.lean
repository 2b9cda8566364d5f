import Verif.Spec.Created
/-! # What is expected of changing the data and variables of an entity -/
namespace FT.Spec

/-- The variables of an entity are the columns of its frame, the index among them and its time index too. -/
structure Coherent (x : Entity) : Prop where
  vars : x.vars.map Var.id = x.df.cols
  distinct : x.df.cols.Nodup
  index : x.index ∈ x.df.cols
  time : ∀ t, x.timeIndex = some t → t ∈ x.df.cols

/-- A variable made anew with another type: it keeps id and name, and has no description, interesting values or other
parameters of its own. -/
structure Remade (v w : Var) (t : String) : Prop where
  id : w.id = v.id
  type : w.type = t
  name : w.name.getD w.id = v.name.getD v.id
  desc : w.desc = none
  interesting : w.interesting = []
  params : w.params = []

/-- What happens to a variable when data are replaced: the index and the time index are made anew, others are as before. -/
inductive AfterUpdate (lib : Lib) (x : Entity) (f : DataFrame) (v w : Var) : Prop
  | date (h : x.timeIndex = some v.id) (hd : lib.isDatetime f v.id = true) (hw : Remade v w "datetime_time_index")
  | number (h : x.timeIndex = some v.id) (hd : lib.isDatetime f v.id = false) (hw : Remade v w "numeric_time_index")
  | index (h : x.timeIndex ≠ some v.id) (hi : v.id = x.index) (hw : Remade v w "index")
  | other (h : x.timeIndex ≠ some v.id) (hi : v.id ≠ x.index) (hw : w = v)

/-- The frame can replace the data of an entity. -/
structure Replaceable (lib : Lib) (tt : Option TimeType) (x : Entity) (f : DataFrame) : Prop where
  count : f.cols.length = x.vars.length
  cols : ∀ v ∈ x.vars, v.id ∈ f.cols
  distinct : (f.rows.map fun r => r x.index).Nodup
  time : ∀ t, x.timeIndex = some t → ∃ ty, lib.timeType f t = some ty ∧ (tt = none ∨ tt = some ty)
  secondary : ∀ s ∈ x.secondary, s.1 ∈ x.vars.map Var.id ∧ ∃ ty, lib.timeType f s.1 = some ty ∧
    match x.timeIndex with
    | some t => lib.timeType f t = some ty
    | none => tt = some ty

end FT.Spec
