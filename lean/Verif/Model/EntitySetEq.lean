import Verif.Model.EntitySet
/-!
# Comparing and concatenating entity sets

Models `EntitySet.__eq__`, `Entity.__eq__`, `Variable.__eq__`, `_dataframes_equal` and `EntitySet.concat`, pandas only.
-/
namespace FT

/-- `Variable.__eq__` (`variable.py` 60-68) inside one entity: same id and same class. (`isinstance` against the class of
the other: between a class and its subclass Python asks the subclass first, whose answer is `False`.) -/
def sameVar (v w : Var) : Bool := v.id == w.id && v.type == w.type

/-- `set(a) == set(b)` with an equality. -/
def setEqBy {α : Type} (eq : α → α → Bool) (a b : List α) : Bool := (a.all fun v => b.any fun w => eq v w) && (b.all fun w => a.any fun v => eq v w)

/-- `dict.__eq__` for secondary time indexes. -/
def dictEq (a b : List (String × List String)) : Bool := a.length == b.length && a.all fun p => b.lookup p.1 == some p.2

/-- `_dataframes_equal` (`utils/wrangle.py` 115-155). The variables called `…_empty` say whether a frame has rows: only the
columns of two frames without rows are compared (their cells are equal, there being none). -/
def framesEqual (a b : DataFrame) : Bool :=
  if (!a.rows.isEmpty) != (!b.rows.isEmpty) then false
  else if a.rows.isEmpty && b.rows.isEmpty then setEqBy (· == ·) a.cols b.cols
  else true

/-- The comparison of interesting values in a deep `Entity.__eq__` (`entity.py` 122-127). -/
def deepVarsEq (a b : List Var) : Bool :=
  a.all fun v => match b.find? fun w => sameVar v w with
    | some w => setEqBy (· == ·) v.interesting w.interesting
    | none => false

/-- `Entity.__eq__` (`entity.py` 101-128). -/
def entityEq (deep : Bool) (x y : Entity) : Bool :=
  x.index == y.index && x.timeIndex == y.timeIndex && dictEq x.secondary y.secondary && x.vars.length == y.vars.length &&
    setEqBy sameVar x.vars y.vars && (!deep || (x.lti == y.lti && framesEqual x.df y.df && deepVarsEq x.vars y.vars))

/-- `EntitySet.__eq__` (`entityset.py` 112-123). -/
def esEq (deep : Bool) (a b : ESet) : Bool :=
  a.entities.length == b.entities.length &&
    (a.entities.all fun x => match b.get? x.id with
      | some y => entityEq deep x y
      | none => false) &&
    a.rels.all fun r => b.rels.contains r

/-- `drop_duplicates(columns)`: the first row of every combination of values. -/
def firstRowsBy (cols : List String) : List Row → List Row
  | [] => []
  | r :: rs => r :: (firstRowsBy cols rs).filter fun s => !cols.all fun c => s c == r c

/-- The rows of an entity in `concat` (`entityset.py` 736-749): `created_index == index` holds when the index was made, and
then all columns count (the condition on a column is always true). Rows are sorted by time and index, or by index. -/
def concatRows (x y : Entity) : List Row :=
  let cols := if x.created = some x.index then x.df.cols else [x.index]
  let rows := firstRowsBy cols (x.df.rows ++ y.df.rows)
  match x.timeIndex with
  | some t => sortRows t x.index rows
  | none => isort (fun a b => (a x.index).sortLe (b x.index)) rows

/-- The loop of `concat` over the entities (`entityset.py` 735-753), without last time indexes. -/
def concatLoop (lib : Lib) (other : ESet) : List Entity → ESet → ESet × Option PyErr
  | [], es => (es, none)
  | x :: xs, es =>
    match other.get? x.id with
    | none => (es, some .assertionError)
    | some y =>
      match updateData lib es x.id { x.df with rows := concatRows x y } false with
      | (es, some e) => (es, some e)
      | (es, none) => concatLoop lib other xs es

/-- `concat` (`entityset.py` 711-758): the combined entity set, without last time indexes. The checks after the comparison
repeat it. -/
def concat (lib : Lib) (self other : ESet) : ESet × Option PyErr :=
  if esEq false self other && self.rels == other.rels then concatLoop lib other self.entities self
  else (self, some .assertionError)

end FT
