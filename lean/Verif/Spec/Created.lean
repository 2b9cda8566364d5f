import Verif.Spec.EntitySetEq
/-! # What is expected of a new entity -/
namespace FT.Spec

/-- What is assumed of pandas and the type system: data conversion leaves cells and columns as they are, types are inferred
for exactly the columns without a given one, and what kind of time a column holds depends on its cells, whatever their order. -/
structure LibOk (lib : Lib) : Prop where
  keeps : KeepsData lib
  infers : ∀ f link given ti sec, (lib.infer f link given ti sec).map Prod.fst = f.cols.filter fun c => decide (c ∉ given.map Prod.fst)
  time : ∀ f g c, (f.rows.map fun r => r c).Perm (g.rows.map fun r => r c) → lib.timeType f c = lib.timeType g c
  date : ∀ f g c, (f.rows.map fun r => r c).Perm (g.rows.map fun r => r c) → lib.isDatetime f c = lib.isDatetime g c

/-- The type asked for: a class, or the class with this name, or else `Unknown`. -/
def asked (lib : Lib) : TypeArg → String
  | .cls s => s
  | .str s => if lib.known s then s else "unknown"

/-- The frame with a column numbering its rows, unless the column exists. -/
def withIndex (i : String) (f : DataFrame) : DataFrame :=
  if i ∈ f.cols then f
  else { cols := i :: f.cols, rows := f.rows.mapIdx fun k r => fun c => if c = i then .num k else r c
         dtype := fun c => if c = i then "int64" else f.dtype c }

/-- `c` is a column of entity `e` that takes part in a relationship. -/
def InRelationship (es : ESet) (e c : String) : Prop := ∃ r ∈ es.rels, (r.parentE = e ∧ r.parentV = c) ∨ (r.childE = e ∧ r.childV = c)

/-- `i` is the index of the entity to create: the given column, new if it is to be made, or else the first column. -/
def IndexIs (a : EntityArgs) (i : String) : Prop :=
  (a.index = some i ∧ (a.makeIndex = true → i ∉ a.df.cols)) ∨ (a.index = none ∧ a.makeIndex = false ∧ a.df.cols.head? = some i)

/-- The types the user gives, with that of the index. -/
def givenNow (lib : Lib) (a : EntityArgs) (i : String) : List (String × String) :=
  (a.types.map fun p => (p.1, asked lib p.2)) ++ if i ∈ a.types.map Prod.fst then [] else [(i, "index")]

/-- The type variable `v` of the new entity should have: that of a time index or index, the one asked for, or else the one
inferred from the data. -/
inductive TypeIs (lib : Lib) (es : ESet) (a : EntityArgs) (x : Entity) (v : String) : String → Prop
  | date (h : a.timeIndex = some v) (hd : lib.isDatetime x.df v = true) : TypeIs lib es a x v "datetime_time_index"
  | number (h : a.timeIndex = some v) (hd : lib.isDatetime x.df v = false) : TypeIs lib es a x v "numeric_time_index"
  | index (h : a.timeIndex ≠ some v) (hi : v = x.index) : TypeIs lib es a x v "index"
  | given (h : a.timeIndex ≠ some v) (hi : v ≠ x.index) (t : TypeArg) (ht : (v, t) ∈ a.types) : TypeIs lib es a x v (asked lib t)
  | inferred (h : a.timeIndex ≠ some v) (hi : v ≠ x.index) (hn : v ∉ a.types.map Prod.fst) (links : List String)
      (hl : ∀ c, c ∈ links ↔ InRelationship es a.id c) (t : String)
      (ht : (v, t) ∈ lib.infer (withIndex x.index a.df) links (givenNow lib a x.index) a.timeIndex a.secondary) : TypeIs lib es a x v t

/-- `x` is what creating an entity should give, in an entity set with time type `tt` afterwards. -/
structure IsCreated (lib : Lib) (es : ESet) (a : EntityArgs) (tt : Option TimeType) (x : Entity) : Prop where
  id : x.id = a.id
  index : IndexIs a x.index
  timeIndex : x.timeIndex = a.timeIndex
  secondary : x.secondary = a.secondary.map fun s => (s.1, if s.1 ∈ s.2 then s.2 else s.2 ++ [s.1])
  cols : x.df.cols.Perm (withIndex x.index a.df).cols
  first : x.df.cols.head? = some x.index
  vars : x.vars.map Var.id = x.df.cols
  types : ∀ v ∈ x.vars, TypeIs lib es a x v.id v.type
  rows : x.df.rows.Perm (withIndex x.index a.df).rows
  asGiven : a.timeIndex = none ∨ a.sorted = true → x.df.rows = (withIndex x.index a.df).rows
  ordered : ∀ t, a.timeIndex = some t → a.sorted = false → x.df.rows.Pairwise (InOrder (some t) x.index)
  time : ∀ t, a.timeIndex = some t → tt = lib.timeType x.df t ∧ tt ≠ none ∧ (es.timeType = none ∨ es.timeType = tt)
  noTime : a.timeIndex = none → tt = es.timeType
  secondaryTime : ∀ s ∈ a.secondary, tt = lib.timeType x.df s.1 ∧ tt ≠ none

/-- The arguments an entity can be created from, when data conversion does not fail. -/
structure Acceptable (lib : Lib) (es : ESet) (a : EntityArgs) (i : String) : Prop where
  index : IndexIs a i
  apart : ∀ t, a.timeIndex = some t → a.index ≠ some t
  noLone : a.timeIndex = none → ∀ p ∈ a.types, p.2 ≠ .cls "datetime_time_index"
  cols : a.df.cols.Nodup
  time : ∀ t, a.timeIndex = some t → t ∈ a.df.cols ∧
    ∃ ty, lib.timeType (withIndex i a.df) t = some ty ∧ (es.timeType = none ∨ es.timeType = some ty)
  types : ∀ p ∈ a.types, p.1 ∈ a.df.cols ∨ p.1 = i
  distinct : ((withIndex i a.df).rows.map fun r => r i).Nodup
  secondary : ∀ s ∈ a.secondary, (s.1 ∈ a.df.cols ∨ s.1 = i) ∧
    ∃ ty, lib.timeType (withIndex i a.df) s.1 = some ty ∧
      match a.timeIndex with
      | some t => lib.timeType (withIndex i a.df) t = some ty
      | none => es.timeType = some ty

end FT.Spec
