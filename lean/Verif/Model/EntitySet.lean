import Verif.Model.Basic
import Verif.Model.Query
/-!
# Entity sets and the operations that change them

Models `featuretools/entityset/entityset.py` (creation, relationships, normalisation, cached metadata) and
`featuretools/entityset/entity.py`, pandas only.  Objects are values: an entity set holds its entities by id, and an
operation gives the entity set afterwards, also when it raises.  What pandas does with the cells (type inference, data
conversion, looking at the first value of a time column) is collected in the parameter `Lib`.
-/
namespace FT

/-- The two kinds of time index (`utils/wrangle.py` 102-112). -/
inductive TimeType | numeric | datetime
deriving DecidableEq, Repr

/-- A variable (`variable_types/variable.py` 19-133): id, class (as `type_string`), name and description when set,
interesting values, and further parameters of its class that differ from their defaults (the true and false values of a
`Boolean`, 158-182). -/
structure Var where
  id : String
  type : String
  name : Option String
  desc : Option String
  interesting : List Val
  params : List (String × List Val) := []
deriving DecidableEq, Repr

/-- A data frame with the dtype of every column. -/
structure DataFrame extends Table where
  dtype : String → String

/-- An entity (`entityset/entity.py` 39-82). -/
structure Entity where
  id : String
  index : String
  timeIndex : Option String
  secondary : List (String × List String)
  created : Option String
  vars : List Var
  df : DataFrame
  lti : Option (List (Val × Val))

/-- The description of a variable (`variable.py` 119-131, 176-182). -/
structure VarDesc where
  id : String
  type : String
  name : String
  description : String
  interesting : List Val
  params : List (String × List Val)
deriving DecidableEq, Repr

/-- The description of an entity (`serialize.py` 20-57). -/
structure EntDesc where
  id : String
  index : String
  timeIndex : Option String
  secondary : List (String × List String)
  hasLti : Bool
  vars : List VarDesc
  dtypes : List (String × String)
deriving DecidableEq, Repr

/-- The description of an entity set (`serialize.py` 60-79). -/
structure Desc where
  entities : List EntDesc
  relationships : List Relationship
deriving DecidableEq, Repr

/-- An entity set (`entityset.py` 74-77): entities in dictionary order, relationships, time type, and what the cached
metadata was made from. -/
structure ESet where
  entities : List Entity
  rels : List Relationship
  timeType : Option TimeType
  cache : Option Desc

/-- `EntitySet()` -/
def ESet.empty : ESet := { entities := [], rels := [], timeType := none, cache := none }

/-- `es[entity_id]` (`entityset.py` 128-141). -/
def ESet.get? (es : ESet) (e : String) : Option Entity := es.entities.find? fun x => x.id == e

/-- `self.entity_dict[entity.id] = entity`: replaces an entity with this id in place, otherwise adds it at the end. -/
def setEntity (l : List Entity) (x : Entity) : List Entity :=
  if l.any (fun y => y.id == x.id) then l.map (fun y => if y.id == x.id then x else y) else l ++ [x]

/-- Change an entity in place. -/
def ESet.modify (es : ESet) (e : String) (f : Entity → Entity) : ESet :=
  { es with entities := es.entities.map fun x => if x.id == e then f x else x }

/-- `entity[variable_id]` (`entity.py` 148-165). -/
def Entity.var? (x : Entity) (v : String) : Option Var := x.vars.find? fun y => y.id == v

/-- Pandas and the type system. `infer` gives types for the columns without a given one (`entity_utils.py` 15-98),
`convert` is `convert_all_variable_data` (101-138), `timeType` the time type of the first value of a column, or of the
default value of its dtype (`entity.py` 373-378), `isDatetime` is `col_is_datetime`, `known` whether a type string is
registered (`entity.py` 225-235), `numeric` is `is_numeric_dtype`. -/
structure Lib where
  infer : DataFrame → List String → List (String × String) → Option String → List (String × List String) → List (String × String)
  convert : DataFrame → List (String × String) → Except PyErr DataFrame
  timeType : DataFrame → String → Option TimeType
  isDatetime : DataFrame → String → Bool
  known : String → Bool
  numeric : String → Bool

/-- A variable type given by the user: a class or a type string. -/
inductive TypeArg | cls (s : String) | str (s : String)
deriving DecidableEq, Repr

/-- `_validate_entity_params` (`entity.py` 478-487). -/
def validateParams (df : DataFrame) (ti : Option String) : Option PyErr :=
  if dedup df.cols ≠ df.cols then some .assertionError
  else match ti with
    | some t => if df.cols.contains t then none else some .lookupError
    | none => none

/-- `df.insert(0, index, range(len(df)))` (`entity.py` 472). -/
def insertRange (index : String) (df : DataFrame) : DataFrame :=
  { cols := index :: df.cols
    rows := df.rows.mapIdx fun i r => fun c => if c = index then .num i else r c
    dtype := fun c => if c = index then "int64" else df.dtype c }

/-- `_create_index` (`entity.py` 444-475). -/
def createIndex (index : Option String) (makeIndex : Bool) (df : DataFrame) : Except PyErr (Option String × String × DataFrame) :=
  match index with
  | none =>
    if makeIndex then .error .assertionError
    else match df.cols with
      | c :: _ => .ok (none, c, df)
      | [] => .error .indexError
  | some i =>
    if makeIndex && df.cols.contains i then .error .runtimeError
    else if df.cols.contains i then .ok (none, i, df)
    else .ok (some i, i, insertRange i df)

/-- `get_linked_vars` (`entity_utils.py` 177-186): looks up the variables of the relationships of this entity. -/
def linkedVars (es : ESet) (e : String) : List Relationship → Except PyErr (List String)
  | [] => .ok []
  | r :: rs =>
    match es.get? r.parentE, es.get? r.childE, linkedVars es e rs with
    | some p, some c, .ok l =>
      if r.parentE = e ∨ r.childE = e then
        if (p.var? r.parentV).isSome && (c.var? r.childV).isSome then
          .ok ((if r.parentE = e then [r.parentV] else []) ++ (if r.childE = e then [r.childV] else []) ++ l)
        else .error .keyError
      else .ok l
    | _, _, .error err => .error err
    | _, _, _ => .error .keyError

/-- Type strings become classes, unknown ones `Unknown` (`entity.py` 225-235); the index gets a type (237-238). -/
def givenTypes (lib : Lib) (types : List (String × TypeArg)) (index : String) : List (String × String) :=
  let given := types.map fun (v, t) => (v, match t with
    | .cls s => s
    | .str s => if lib.known s then s else "unknown")
  if given.any (fun p => p.1 == index) then given else given ++ [(index, "index")]

/-- A new variable of a class. -/
def newVar (p : String × String) : Var := { id := p.1, type := p.2, name := none, desc := none, interesting := [] }

/-- `_create_variables` (`entity.py` 213-266): the variables with the index first, and the converted data. -/
def createVars (lib : Lib) (link : List String) (df : DataFrame) (types : List (String × TypeArg)) (index : String)
    (ti : Option String) (sec : List (String × List String)) : Except PyErr (List Var × DataFrame) :=
  let given := givenTypes lib types index
  let all := lib.infer df link given ti sec ++ given
  if all.all fun p => df.cols.contains p.1 then
    match lib.convert df all with
    | .error e => .error e
    | .ok df => .ok ((all.filter fun p => p.1 == index).map newVar ++ (all.filter fun p => p.1 != index).map newVar, df)
  else .error .lookupError

/-- `new_type.create_from(variable)` (`variable.py` 72-84): keeps id and name only. -/
def Var.createFrom (v : Var) (t : String) : Var := { id := v.id, type := t, name := some (v.name.getD v.id), desc := none, interesting := [] }

/-- `convert_variable_type(variable_id, new_type, convert_data=False)` (`entity.py` 182-211). -/
def Entity.convertType (x : Entity) (v t : String) : Except PyErr Entity :=
  match x.var? v with
  | none => .error .keyError
  | some _ => .ok { x with vars := x.vars.map fun y => if y.id == v then y.createFrom t else y }

/-- `set_index` (`entity.py` 408-422). -/
def Entity.setIndex (x : Entity) (i : String) : Except PyErr Entity :=
  if x.df.cols.contains i then
    if dedup (x.df.rows.map fun r => r i) ≠ x.df.rows.map (fun r => r i) then .error .assertionError
    else match x.convertType i "index" with
      | .ok x => .ok { x with index := i }
      | .error e => .error e
  else .error .keyError

/-- The order `sort_values` uses on cells: numbers before strings before booleans, missing values last. (A column mixing
kinds makes pandas raise; that is not modelled.) -/
def Val.rank : Val → Nat
  | .num _ => 0 | .str _ => 1 | .bool _ => 2 | .null => 3
def Val.sortLe (a b : Val) : Bool :=
  match a, b with
  | .num x, .num y => decide (x ≤ y)
  | .str x, .str y => decide (x ≤ y)
  | .bool x, .bool y => !x || y
  | a, b => decide (a.rank ≤ b.rank)

/-- `df.sort_values([time, index])`. -/
def sortRows (t i : String) (rows : List Row) : List Row :=
  isort (fun a b => if a t = b t then (a i).sortLe (b i) else (a t).sortLe (b t)) rows

/-- The type of a time index variable (`entity.py` 396-399). -/
def timeIndexType (lib : Lib) (df : DataFrame) (t : String) : String :=
  if lib.isDatetime df t then "datetime_time_index" else "numeric_time_index"

/-- `set_time_index` (`entity.py` 372-406): also sets the time type of the entity set, before anything else can fail. -/
def Entity.setTimeIndex (lib : Lib) (tt : Option TimeType) (x : Entity) (t : String) (sorted : Bool) : Option TimeType × Except PyErr Entity :=
  if x.df.cols.contains t then
    match lib.timeType x.df t with
    | none => (tt, .error .typeError)
    | some ty =>
      if tt = none ∨ tt = some ty then
        let df : DataFrame := if sorted then x.df else { x.df with rows := sortRows t x.index x.df.rows }
        match x.convertType t (timeIndexType lib x.df t) with
        | .ok y => (some ty, .ok { y with df := df, timeIndex := some t })
        | .error e => (some ty, .error e)
      else (tt, .error .typeError)
  else (tt, .error .keyError)

/-- The checks of `set_secondary_time_index` (`entity.py` 424-441). -/
def checkSecondary (lib : Lib) (tt : Option TimeType) (df : DataFrame) : List (String × List String) → Option PyErr
  | [] => none
  | (t, _) :: l =>
    if df.cols.contains t then
      match lib.timeType df t with
      | none => some .typeError
      | some ty => if tt = some ty then checkSecondary lib tt df l else some .typeError
    else some .keyError

/-- Each secondary time index governs its own column too (`entity.py` 438-439). -/
def addOwnColumn (sec : List (String × List String)) : List (String × List String) :=
  sec.map fun (t, cols) => (t, if cols.contains t then cols else cols ++ [t])

/-- `set_secondary_time_index` (`entity.py` 424-441). -/
def Entity.setSecondary (lib : Lib) (tt : Option TimeType) (x : Entity) (sec : List (String × List String)) : Except PyErr Entity :=
  match checkSecondary lib tt x.df sec with
  | some e => .error e
  | none => .ok { x with secondary := addOwnColumn sec }

/-- The parameters of `entity_from_dataframe` (`entityset.py` 436-444). -/
structure EntityArgs where
  id : String
  df : DataFrame
  index : Option String := none
  types : List (String × TypeArg) := []
  makeIndex : Bool := false
  timeIndex : Option String := none
  secondary : List (String × List String) := []
  sorted : Bool := false

/-- The end of `Entity.__init__` (`entity.py` 74-82), after the variables are made: index, time index, secondary ones. -/
def finishEntity (lib : Lib) (tt : Option TimeType) (x : Entity) (index : String) (a : EntityArgs) : Option TimeType × Except PyErr Entity :=
  match x.setIndex index with
  | .error e => (tt, .error e)
  | .ok x =>
    let r := match a.timeIndex with
      | some t => x.setTimeIndex lib tt t a.sorted
      | none => (tt, .ok x)
    match r.2 with
    | .error e => (r.1, .error e)
    | .ok x => (r.1, x.setSecondary lib r.1 a.secondary)

/-- `Entity.__init__` (`entity.py` 39-82): the time type of the entity set afterwards and the entity. (`df.insert` also
changes the frame of the caller; that is not modelled.) -/
def newEntity (lib : Lib) (es : ESet) (a : EntityArgs) : Option TimeType × Except PyErr Entity :=
  match validateParams a.df a.timeIndex with
  | some e => (es.timeType, .error e)
  | none =>
    match createIndex a.index a.makeIndex a.df with
    | .error e => (es.timeType, .error e)
    | .ok (created, index, df) =>
      match linkedVars es a.id es.rels with
      | .error e => (es.timeType, .error e)
      | .ok link =>
        match createVars lib link df a.types index a.timeIndex a.secondary with
        | .error e => (es.timeType, .error e)
        | .ok (vars, df) =>
          finishEntity lib es.timeType
            { id := a.id, index := index, timeIndex := none, secondary := [], created := created, vars := vars
              df := { df with cols := vars.map Var.id }, lti := none } index a

/-- The checks at the start of `entity_from_dataframe` (`entityset.py` 496-506). -/
def entityArgsError (a : EntityArgs) : Option PyErr :=
  if a.timeIndex ≠ none ∧ a.timeIndex = a.index then some .valueError
  else if a.timeIndex = none ∧ a.types.any (fun p => p.2 == .cls "datetime_time_index") then some .valueError
  else none

/-- `entity_from_dataframe` (`entityset.py` 436-526): the entity set afterwards and the exception, if any. -/
def entityFromDataframe (lib : Lib) (es : ESet) (a : EntityArgs) : ESet × Option PyErr :=
  match entityArgsError a with
  | some e => (es, some e)
  | none =>
    match newEntity lib es a with
    | (tt, .error e) => ({ es with timeType := tt }, some e)
    | (tt, .ok x) => ({ es with entities := setEntity es.entities x, timeType := tt, cache := none }, none)

/-- Change the type of a variable to `t` unless it has it (`entityset.py` 264-272). -/
def ensureType (es : ESet) (e v t : String) : ESet :=
  es.modify e fun x => { x with vars := x.vars.map fun y => if y.id == v && y.type != t then y.createFrom t else y }

/-- The empty-frame workaround (`entityset.py` 273-280). -/
def fixEmptyDtype (lib : Lib) (es : ESet) (pe pv ce cv : String) : ESet :=
  match es.get? pe with
  | none => es
  | some p => es.modify ce fun c =>
    if c.df.rows.isEmpty && c.df.dtype cv == "object" && lib.numeric (p.df.dtype pv) then
      { c with df := { c.df with dtype := fun x => if x = cv then "int64" else c.df.dtype x } }
    else c

/-- The dtype of a column of an entity. -/
def ESet.dtypeOf (es : ESet) (e v : String) : Option String := (es.get? e).map fun x => x.df.dtype v

/-- The part of `add_relationship` after the duplicate test (`entityset.py` 256-292). -/
def addNewRelationship (lib : Lib) (es : ESet) (r : Relationship) (p c : Entity) : ESet × Option PyErr :=
  if c.index = r.childV then (es, some .valueError)
  else if (p.var? r.parentV).isNone || (c.var? r.childV).isNone then (es, some .keyError)
  else
    let es1 := fixEmptyDtype lib (ensureType (ensureType es r.childE r.childV "id") r.parentE r.parentV "index") r.parentE r.parentV r.childE r.childV
    if es1.dtypeOf r.parentE r.parentV ≠ es1.dtypeOf r.childE r.childV then (es1, some .valueError)
    else ({ es1 with rels := es1.rels ++ [r], cache := none }, none)

/-- `es.add_relationship(Relationship(es[pe][pv], es[ce][cv]))`: looking up the variables (`entity.py` 148-165),
`Relationship.__init__` (`relationship.py` 8-27) and `add_relationship` (`entityset.py` 242-292). -/
def addRelationship (lib : Lib) (es : ESet) (r : Relationship) : ESet × Option PyErr :=
  match es.get? r.parentE, es.get? r.childE with
  | some p, some c =>
    if (p.var? r.parentV).isNone || (c.var? r.childV).isNone then (es, some .keyError)
    else if p.index ≠ r.parentV then (es, some .attributeError)
    else if es.rels.contains r then (es, none)
    else addNewRelationship lib es r p c
  | _, _ => (es, some .keyError)

/-- Remove the first variable with an id. -/
def removeVar (vars : List Var) (v : String) : List Var := vars.eraseP fun y => y.id == v

/-- The loop of `delete_variables` (`entity.py` 368-370): stops at an id that is (no longer) there. -/
def removeVars : List Var → List String → List Var × Option PyErr
  | vars, [] => (vars, none)
  | vars, v :: vs => if vars.any (fun y => y.id == v) then removeVars (removeVar vars v) vs else (vars, some .keyError)

/-- `delete_variables` (`entity.py` 350-370). -/
def Entity.deleteVars (x : Entity) (vs : List String) : Entity × Option PyErr :=
  if vs.isEmpty then (x, none)
  else if vs.all fun v => x.df.cols.contains v then
    let r := removeVars x.vars vs
    ({ x with df := { x.df with cols := x.df.cols.filter fun c => !vs.contains c }, vars := r.1 }, r.2)
  else (x, some .keyError)

/-- `es[e].delete_variables(vs)`; the cached metadata is not reset. -/
def deleteVariables (es : ESet) (e : String) (vs : List String) : ESet × Option PyErr :=
  match es.get? e with
  | none => (es, some .keyError)
  | some x => (es.modify e fun _ => (x.deleteVars vs).1, (x.deleteVars vs).2)

/-- `es[e].convert_variable_type(v, t, convert_data=False)`; the cached metadata is not reset. -/
def convertVariableType (es : ESet) (e v t : String) : ESet × Option PyErr :=
  match es.get? e with
  | none => (es, some .keyError)
  | some x => match x.convertType v t with
    | .ok y => (es.modify e fun _ => y, none)
    | .error err => (es, some err)

/-- `make_time_index` of `normalize_entity`: `None`, `True`, `False` or a column. -/
inductive MakeTime | dflt | yes | no | col (c : String)
deriving DecidableEq, Repr

/-- The parameters of `normalize_entity` (`entityset.py` 528-533). -/
structure NormArgs where
  base : String
  new : String
  index : String
  additional : List String := []
  copy : List String := []
  makeTime : MakeTime := .dflt
  makeSecondary : List (String × List String) := []
  newTime : Option String := none
  newSecondary : Option String := none

/-- The checks at the start of `normalize_entity` (`entityset.py` 573-607). -/
def normError (x : Entity) (a : NormArgs) : Option PyErr :=
  if x.timeIndex.any (fun t => match x.var? t with
      | some v => !(v.type == "numeric_time_index" || v.type == "datetime_time_index")
      | none => true) then some .typeError
  else if dedup a.additional ≠ a.additional then some .valueError
  else if dedup a.copy ≠ a.copy then some .valueError
  else if (a.additional ++ a.copy).contains a.index then some .valueError
  else if a.additional.any (fun v => some v == x.timeIndex) then some .valueError
  else match a.makeTime with
    | .col c =>
      if !x.df.cols.contains c || !(a.additional ++ a.copy).contains c then some .valueError
      else if a.index = x.index then some .valueError else none
    | _ => if a.index = x.index then some .valueError else none

/-- The type a column has in the new entity (`entityset.py` 609-617). -/
def transferType (t : String) : String :=
  if t = "datetime_time_index" then "datetime" else if t = "numeric_time_index" then "numeric" else t

/-- `transfer_types` for the moved and copied columns; a column that is no variable is a `KeyError`. -/
def transferTypes (x : Entity) : List String → Except PyErr (List (String × TypeArg))
  | [] => .ok []
  | v :: vs => match x.var? v, transferTypes x vs with
    | some y, .ok l => .ok ((v, .cls (transferType y.type)) :: l)
    | none, _ => .error .keyError
    | _, .error e => .error e

/-- What is decided about the time index of the new entity (`entityset.py` 622-650). -/
structure NormTime where
  time : Option String      -- `new_entity_time_index`
  source : Option String    -- the column renamed to it
  sorted : Bool
  copy : List String        -- `copy_variables`, with the base time index appended
  types : List (String × TypeArg)

/-- Does the new entity get the base time index (`make_time_index` true after 622-623)? -/
def useBaseTime (x : Entity) (a : NormArgs) : Bool :=
  a.makeTime == .yes || (a.makeTime == .dflt && x.timeIndex.isSome)

/-- The time index of the new entity (`entityset.py` 622-654). -/
def normTime (x : Entity) (a : NormArgs) : Except PyErr NormTime :=
  match a.makeTime with
  | .col c => .ok { time := some c, source := some c, sorted := some c == x.timeIndex, copy := a.copy, types := [] }
  | _ =>
    if useBaseTime x a then
      match x.timeIndex with
      | none => .error .assertionError
      | some t =>
        let name := a.newTime.getD ("first_" ++ x.id ++ "_time")
        .ok { time := some name, source := some t, sorted := true
              copy := if a.additional.contains t then a.copy else a.copy ++ [t]
              types := match x.var? t with
                | some v => [(name, .cls v.type)]
                | none => [] }
    else .ok { time := none, source := none, sorted := false, copy := a.copy, types := [] }

/-- `df.drop_duplicates(index, keep='first')`: the first row of every value. -/
def firstRows (index : String) : List Row → List Row
  | [] => []
  | r :: rs => r :: (firstRows index rs).filter fun s => s index ≠ r index

/-- Rename a column in a list of names. -/
def renameCol (src dst c : String) : String := if c = src then dst else c

/-- A row after `rename(columns={src: dst})`. -/
def renameRow (src dst : String) (r : Row) : Row := fun c => if c = dst then r src else r c

/-- The columns of the secondary time index joined to the new rows (`entityset.py` 666-680): values of the last base row
with the same index. -/
def joinSecondary (index : String) (rows : List Row) (src dst : String) (cols : List String) (r : Row) : Row :=
  match rows.reverse.find? fun s => s index = r index with
  | some s => fun c => if c = dst then s src else if cols.contains c then s c else r c
  | none => r

/-- The frame of the new entity before a secondary time index is joined (`entityset.py` 656-664). -/
def normFrame0 (x : Entity) (a : NormArgs) (t : NormTime) : DataFrame :=
  match t.source, t.time with
  | some s, some d => { cols := (a.index :: a.additional ++ t.copy).map (renameCol s d), rows := (firstRows a.index x.df.rows).map (renameRow s d)
                        dtype := fun c => if c = d then x.df.dtype s else x.df.dtype c }
  | _, _ => { cols := a.index :: a.additional ++ t.copy, rows := firstRows a.index x.df.rows, dtype := x.df.dtype }

/-- The frame of the new entity (`entityset.py` 656-682). -/
def normFrame (x : Entity) (a : NormArgs) (t : NormTime) : Except PyErr DataFrame :=
  if (a.index :: a.additional ++ t.copy).all fun c => x.df.cols.contains c then
    let f := normFrame0 x a t
    match a.makeSecondary with
    | [] => .ok f
    | [(s, cols)] =>
      let d := a.newSecondary.getD s
      let new := d :: cols.map (renameCol s d)
      if (s :: cols).all fun c => x.df.cols.contains c then
        if new.any fun c => f.cols.contains c then .error .valueError
        else .ok { cols := f.cols ++ new, rows := f.rows.map (joinSecondary a.index x.df.rows s d cols)
                   dtype := fun c => if c = d then x.df.dtype s else if cols.contains c then x.df.dtype c else f.dtype c }
      else .error .keyError
    | _ => .error .assertionError
  else .error .keyError

/-- The secondary time index of the new entity (`entityset.py` 686-690). -/
def normSecondary (a : NormArgs) : List (String × List String) :=
  match a.makeSecondary with
  | [(s, cols)] => [(a.newSecondary.getD s, cols.map (renameCol s (a.newSecondary.getD s)))]
  | _ => []

/-- The call of `entity_from_dataframe` prepared by `normalize_entity` (`entityset.py` 609-702). -/
def normEntityArgs (x : Entity) (a : NormArgs) : Except PyErr EntityArgs :=
  match x.var? a.index, transferTypes x (a.additional ++ a.copy), normTime x a with
  | none, _, _ => .error .keyError
  | _, .error e, _ => .error e
  | _, _, .error e => .error e
  | some _, .ok types, .ok t =>
    if t.time = some a.index then .error .valueError
    else match normFrame x a t with
      | .error e => .error e
      | .ok f => .ok { id := a.new, df := f, index := some a.index, timeIndex := t.time, secondary := normSecondary a, sorted := t.sorted
                       types := (a.index, .cls "categorical") :: types ++ t.types }

/-- The end of `normalize_entity` (`entityset.py` 704-709): remove the moved columns, make the key an `Id`, relate. -/
def normFinish (lib : Lib) (es : ESet) (a : NormArgs) : ESet × Option PyErr :=
  match deleteVariables es a.base a.additional with
  | (es, some e) => (es, some e)
  | (es, none) =>
    match convertVariableType es a.base a.index "id" with
    | (es, some e) => (es, some e)
    | (es, none) =>
      match addRelationship lib es ⟨a.new, a.index, a.base, a.index⟩ with
      | (es, some e) => (es, some e)
      | (es, none) => ({ es with cache := none }, none)

/-- `normalize_entity` (`entityset.py` 528-710). The case that the new entity has the id of the base entity is not
modelled (`PyErr.other`). -/
def normalizeEntity (lib : Lib) (es : ESet) (a : NormArgs) : ESet × Option PyErr :=
  match es.get? a.base with
  | none => (es, some .keyError)
  | some x =>
    if a.new = a.base then (es, some .other)
    else match normError x a with
      | some e => (es, some e)
      | none => match normEntityArgs x a with
        | .error e => (es, some e)
        | .ok args => match entityFromDataframe lib es args with
          | (es, some e) => (es, some e)
          | (es, none) => normFinish lib es a

/-- `variable.to_data_description()` (`variable.py` 119-131, 176-182). -/
def describeVar (v : Var) : VarDesc :=
  { id := v.id, type := v.type, name := v.name.getD v.id, description := v.desc.getD ("the \"" ++ v.name.getD v.id ++ "\"")
    interesting := v.interesting, params := v.params }

/-- `entity_to_description` (`serialize.py` 20-57). -/
def describeEntity (x : Entity) : EntDesc :=
  { id := x.id, index := x.index, timeIndex := x.timeIndex, secondary := x.secondary, hasLti := x.lti.isSome
    vars := x.vars.map describeVar
    dtypes := (x.df.cols.filter fun c => x.vars.any fun v => v.id == c).map fun c => (c, x.df.dtype c) }

/-- `entityset_to_description` (`serialize.py` 60-79): entities sorted by id. -/
def describe (es : ESet) : Desc :=
  { entities := isort (fun a b => decide (a.id ≤ b.id)) (es.entities.map describeEntity), relationships := es.rels }

/-- Reading `es.metadata` (`entityset.py` 147-157): the cached one or a new one. -/
def readMetadata (es : ESet) : ESet × Desc :=
  match es.cache with
  | some d => (es, d)
  | none => ({ es with cache := some (describe es) }, describe es)

/-- `update_data` (`entity.py` 268-290), without recomputing last time indexes. -/
def updateData (lib : Lib) (es : ESet) (e : String) (df : DataFrame) (sorted : Bool) : ESet × Option PyErr :=
  match es.get? e with
  | none => (es, some .keyError)
  | some x =>
    if df.cols.length ≠ x.vars.length then (es, some .valueError)
    else if x.vars.all fun v => df.cols.contains v.id then
      let x1 : Entity := { x with df := { df with cols := x.vars.map Var.id } }
      match x1.setIndex x.index with
      | .error err => (es.modify e fun _ => x1, some err)
      | .ok x2 =>
        let r := match x.timeIndex with
          | some t => x2.setTimeIndex lib es.timeType t sorted
          | none => (es.timeType, .ok x2)
        match r.2 with
        | .error err => ({ es.modify e (fun _ => x2) with timeType := r.1 }, some err)
        | .ok x3 => match x3.setSecondary lib r.1 x.secondary with
          | .error err => ({ es.modify e (fun _ => x3) with timeType := r.1 }, some err)
          | .ok x4 => ({ es.modify e (fun _ => x4) with timeType := r.1, cache := none }, none)
    else (es, some .valueError)

/-- Setting `variable.description` (`variable.py` 99-103): resets the metadata when it changes. -/
def setDescription (es : ESet) (e v : String) (d : String) : ESet × Option PyErr :=
  match (es.get? e).bind fun x => x.var? v with
  | none => (es, some .keyError)
  | some y =>
    let es1 := es.modify e fun x => { x with vars := x.vars.map fun y => if y.id == v then { y with desc := some d } else y }
    if some d = y.desc then (es, none) else ({ es1 with cache := none }, none)

end FT
