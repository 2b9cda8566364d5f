import Verif.Model.EntitySet
/-! # Adding several relationships

Models `EntitySet.add_relationships` (`entityset/entityset.py` 233-240). The relationships are made by the caller before
(`relationship.py` 8-27), so that one that cannot be made keeps all of them from being added. -/
namespace FT

/-- Looking up the variables (`entity.py` 148-165) and `Relationship.__init__` (`relationship.py` 8-27): what is raised. -/
def makeRelationship (es : ESet) (r : Relationship) : Option PyErr :=
  match es.get? r.parentE, es.get? r.childE with
  | some p, some c =>
    if (p.var? r.parentV).isNone || (c.var? r.childV).isNone then some .keyError
    else if p.index ≠ r.parentV then some .attributeError
    else none
  | _, _ => some .keyError

/-- The list comprehension of line 240. -/
def addEach (lib : Lib) : ESet → List Relationship → ESet × Option PyErr
  | es, [] => (es, none)
  | es, r :: rs =>
    let a := addRelationship lib es r
    match a.2 with
    | some e => (a.1, some e)
    | none => addEach lib a.1 rs

/-- `add_relationships` (lines 233-240): its result is the last one of the list. -/
def addRelationships (lib : Lib) (es : ESet) (rs : List Relationship) : ESet × Option PyErr :=
  match rs.findSome? (makeRelationship es) with
  | some e => (es, some e)
  | none =>
    let a := addEach lib es rs
    match a.2 with
    | some e => (a.1, some e)
    | none => if rs.isEmpty then (a.1, some .indexError) else (a.1, none)

end FT
