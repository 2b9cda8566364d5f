import Verif.Spec.Replaced
/-! # What is expected of the two entities after `normalize_entity` -/
namespace FT.Spec

/-- The time index of the new entity and the column of the base entity it is taken from: the column that is named, or the
time index of the base entity under a new name, unless there is none or none is wanted. -/
def newTime (x : Entity) (a : NormArgs) : Option (String × String) :=
  match a.makeTime with
  | .col c => some (c, c)
  | .no => none
  | _ => x.timeIndex.map fun t => (a.newTime.getD ("first_" ++ x.id ++ "_time"), t)

/-- The secondary time index of the new entity, the column it is taken from, and the columns that go with it. -/
def newSecondary (a : NormArgs) : Option (String × String × List String) :=
  match a.makeSecondary with
  | [(s, cols)] => some (a.newSecondary.getD s, s, cols)
  | _ => none

/-- Is the time index of the new entity an additional column? -/
def timeColumn (x : Entity) (a : NormArgs) : List String :=
  match a.makeTime, newTime x a with
  | .col _, _ => []
  | _, some (t, _) => [t]
  | _, none => []

/-- The columns of the new entity. -/
def newCols (x : Entity) (a : NormArgs) : List String :=
  a.index :: a.additional ++ a.copy ++ timeColumn x a ++
    match newSecondary a with
    | some (d, _, cols) => d :: cols
    | none => []

/-- The cell of the first row with a key. -/
def firstCell (x : Entity) (key : String) (v : Val) (c : String) : Option Val := (x.df.rows.find? fun r => decide (r key = v)).map fun r => r c

/-- The cell of the last row with a key. -/
def lastCell (x : Entity) (key : String) (v : Val) (c : String) : Option Val := (x.df.rows.reverse.find? fun r => decide (r key = v)).map fun r => r c

/-- The cell in column `c` of the row for key `v`: what the base entity has in its last row with this key in a column of the
secondary time index, otherwise in the first one. -/
def newCell (x : Entity) (a : NormArgs) (v : Val) (c : String) : Option Val :=
  match newSecondary a with
  | some (d, s, cols) =>
    if c = d then lastCell x a.index v s else if c ∈ cols then lastCell x a.index v c else firstCell x a.index v (source c)
  | none => firstCell x a.index v (source c)
where
  source (c : String) : String :=
    match newTime x a with
    | some (t, b) => if c = t then b else c
    | none => c

/-- The data of the new entity: a row for each key, in the order in which keys first occur. -/
def newFrame (x : Entity) (a : NormArgs) : DataFrame where
  cols := newCols x a
  rows := (x.df.rows.map fun r => r a.index).eraseDups.map fun v c => (newCell x a v c).getD .null
  dtype := x.df.dtype

/-- The type of a column that is moved or copied: time indexes become plain times and numbers. -/
def carriedType (t : String) : String :=
  if t = "datetime_time_index" then "datetime" else if t = "numeric_time_index" then "numeric" else t

/-- `n` is the new entity. -/
structure IsNew (lib : Lib) (x : Entity) (a : NormArgs) (n : Entity) : Prop where
  id : n.id = a.new
  index : n.index = a.index
  timeIndex : n.timeIndex = (newTime x a).map fun p => p.1
  secondary : n.secondary = match newSecondary a with
    | some (d, _, cols) => [(d, cols ++ [d])]
    | none => []
  cols : n.df.cols.Perm (newCols x a)
  first : n.df.cols.head? = some a.index
  vars : n.vars.map Var.id = n.df.cols
  keys : (n.df.rows.map fun r => r a.index).Perm (x.df.rows.map fun r => r a.index).eraseDups
  cells : ∀ r ∈ n.df.rows, ∀ c ∈ n.df.cols, newCell x a (r a.index) c = some (r c)
  asBefore : (∀ c, a.makeTime = .col c → x.timeIndex = some c) →
    n.df.rows.map (fun r => r a.index) = (x.df.rows.map fun r => r a.index).eraseDups
  ordered : ∀ c, a.makeTime = .col c → x.timeIndex ≠ some c → n.df.rows.Pairwise (InOrder (some c) a.index)
  keyType : ∀ v ∈ n.vars, v.id = a.index → v.type = "index"
  timeType : ∀ v ∈ n.vars, n.timeIndex = some v.id → v.type = if lib.isDatetime n.df v.id then "datetime_time_index" else "numeric_time_index"
  carried : ∀ v ∈ n.vars, v.id ∈ a.additional ++ a.copy → n.timeIndex ≠ some v.id → ∃ w ∈ x.vars, w.id = v.id ∧ v.type = carriedType w.type

/-- `y` is the base entity afterwards: without the moved columns, and with the key as a foreign key. -/
structure IsBase (x : Entity) (a : NormArgs) (y : Entity) : Prop where
  id : y.id = x.id
  index : y.index = x.index
  timeIndex : y.timeIndex = x.timeIndex
  secondary : y.secondary = x.secondary
  lti : y.lti = x.lti
  cols : y.df.cols = x.df.cols.filter fun c => decide (c ∉ a.additional)
  rows : y.df.rows = x.df.rows
  ids : y.vars.map Var.id = (x.vars.map Var.id).filter fun c => decide (c ∉ a.additional)
  key : ∀ w ∈ y.vars, w.id = a.index → ∃ v ∈ x.vars, Remade v w "id"
  others : ∀ w ∈ y.vars, w.id ≠ a.index → w ∈ x.vars

/-- The calls of `normalize_entity` that make sense. -/
structure Normalisable (lib : Lib) (es : ESet) (x : Entity) (a : NormArgs) : Prop where
  apart : a.new ≠ a.base
  timeVar : ∀ t, x.timeIndex = some t → ∃ v ∈ x.vars, v.id = t ∧ (v.type = "numeric_time_index" ∨ v.type = "datetime_time_index")
  key : a.index ≠ x.index
  known : ∀ c ∈ a.index :: a.additional ++ a.copy, c ∈ x.df.cols
  moved : ∀ t, x.timeIndex = some t → t ∉ a.additional
  named : ∀ c, a.makeTime = .col c → c ∈ a.additional ++ a.copy
  base : a.makeTime = .yes → x.timeIndex ≠ none
  fresh : (∀ c, a.makeTime ≠ .col c) → ∀ p, newTime x a = some p → p.2 ∉ a.copy ∧ p.2 ≠ a.index
  one : a.makeSecondary = [] ∨ ∃ s cols, a.makeSecondary = [(s, cols)] ∧ s ∉ cols ∧ ∀ c ∈ s :: cols, c ∈ x.df.cols
  distinct : (newCols x a).Nodup
  time : ∀ p, newTime x a = some p → ∃ ty, lib.timeType (newFrame x a) p.1 = some ty ∧ (es.timeType = none ∨ es.timeType = some ty)
  secondary : ∀ p, newSecondary a = some p → ∃ ty, lib.timeType (newFrame x a) p.1 = some ty ∧
    match newTime x a with
    | some q => lib.timeType (newFrame x a) q.1 = some ty
    | none => es.timeType = some ty

end FT.Spec
