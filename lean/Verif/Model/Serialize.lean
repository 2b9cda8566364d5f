import Verif.Model.LastTime
/-!
# Reading descriptions of entity sets

Models `featuretools/entityset/deserialize.py` 18-121 for pandas entities.  The frames come from `frames` (files read from
disk, or empty frames).  `Json` collects what pandas does with interesting values.
-/
namespace FT

/-- `read` is `pd.read_json(values.to_json(), typ='series')` and the cast to the dtype of the variable, `discrete` tells which
type strings belong to subclasses of `Discrete`. -/
structure Json where
  read : List Val → List Val
  discrete : String → Bool

/-- The setters of `interesting_values` (`variable.py` 109-112, 146-153): discrete variables drop repeated values. -/
def setInteresting (json : Json) (v : Var) (vals : List Val) : Var :=
  { v with interesting := if json.discrete v.type then dedup vals else vals }

/-- What is set on a variable after its entity is made (`deserialize.py` 65-71): interesting values, and the description
unless it is the one the variable has by default. -/
def restoreVar (json : Json) (d : VarDesc) (v : Var) : Var :=
  let v := setInteresting json v (json.read d.interesting)
  if d.description ≠ "the \"" ++ v.name.getD v.id ++ "\"" then { v with desc := some d.description } else v

/-- The loop over the variables of a new entity (`deserialize.py` 65-71). -/
def restoreVars (json : Json) (ds : List VarDesc) (x : Entity) : Entity :=
  { x with vars := x.vars.map fun v => match ds.find? fun d => d.id == v.id with
    | some d => restoreVar json d v
    | none => v }

/-- `description_to_entity` (`deserialize.py` 44-71). Of the type of a variable only the type string is used (28-29). A
variable that is not described is a `KeyError`. -/
def rebuildEntity (lib : Lib) (json : Json) (es : ESet) (d : EntDesc) (df : DataFrame) : ESet × Option PyErr :=
  match entityFromDataframe lib es { id := d.id, df := df, index := some d.index, timeIndex := d.timeIndex, secondary := d.secondary
                                     types := d.vars.map fun v => (v.id, .str v.type) } with
  | (es, some e) => (es, some e)
  | (es, none) =>
    if ((es.get? d.id).map fun x => x.vars.all fun v => d.vars.any fun w => w.id == v.id) = some true then
      (es.modify d.id (restoreVars json d.vars), none)
    else (es, some .keyError)

/-- The loop over the entities (`deserialize.py` 93-98). -/
def rebuildEntities (lib : Lib) (json : Json) (frames : String → DataFrame) : List EntDesc → ESet → ESet × Option PyErr
  | [], es => (es, none)
  | d :: ds, es =>
    match rebuildEntity lib json es d (frames d.id) with
    | (es, some e) => (es, some e)
    | (es, none) => rebuildEntities lib json frames ds es

/-- The loop over the relationships (`deserialize.py` 100-102). -/
def rebuildRels (lib : Lib) : List Relationship → ESet → ESet × Option PyErr
  | [], es => (es, none)
  | r :: rs, es =>
    match addRelationship lib es r with
    | (es, some e) => (es, some e)
    | (es, none) => rebuildRels lib rs es

/-- `description_to_entityset` (`deserialize.py` 74-107), after the check of the schema version; `none` if the computation of
last time indexes does not end. -/
def rebuild (lib : Lib) (json : Json) (order : List String → List String) (fuel : Nat) (d : Desc) (frames : String → DataFrame) :
    Option (ESet × Option PyErr) :=
  match rebuildEntities lib json frames d.entities ESet.empty with
  | (es, some e) => some (es, some e)
  | (es, none) =>
    match rebuildRels lib d.relationships es with
    | (es, some e) => some (es, some e)
    | (es, none) =>
      let updated := (d.entities.filter fun x => x.hasLti).map fun x => x.id
      if updated.isEmpty then some (es, none)
      else match addLastTimeIndexes es order updated fuel with
        | some es => some (es, none)
        | none => none

end FT
