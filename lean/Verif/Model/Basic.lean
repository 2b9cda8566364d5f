/-!
# Basic data of the model: relationships and relationship paths

Models `featuretools/entityset/relationship.py`.
-/
namespace FT

/-- `entityset/relationship.py:8-27`: a relationship is identified by its four ids (see `__eq__`, lines 44-51).
The back pointer to the entity set is not part of the identity and is passed explicitly where it is used. -/
structure Relationship where
  parentE : String
  parentV : String
  childE : String
  childV : String
deriving DecidableEq, Repr, Inhabited

/-- `entityset/relationship.py:115-117`: a path is a list of (is_forward, relationship). -/
abbrev RelPath := List (Bool × Relationship)

/-- `entityset/entityset.py:396-405`. -/
def getForwardRelationships (rels : List Relationship) (e : String) : List Relationship :=
  rels.filter fun r => r.childE == e

/-- `entityset/entityset.py:407-417`. -/
def getBackwardRelationships (rels : List Relationship) (e : String) : List Relationship :=
  rels.filter fun r => r.parentE == e

/-- `entityset/relationship.py:103-112` `_is_unique`; the `assert n > 0` is the `none` case. -/
def Relationship.isUnique? (rels : List Relationship) (r : Relationship) : Option Bool :=
  let n := ((getForwardRelationships rels r.childE).filter fun s => s.parentE == r.parentE).length
  if n > 0 then some (n == 1) else none

/-- `entityset/relationship.py:79-85` `parent_name`. -/
def Relationship.parentName? (rels : List Relationship) (r : Relationship) : Option String :=
  (r.isUnique? rels).map fun u => if u then r.parentE else r.parentE ++ "[" ++ r.childV ++ "]"

/-- `entityset/relationship.py:87-93` `child_name`. -/
def Relationship.childName? (rels : List Relationship) (r : Relationship) : Option String :=
  (r.isUnique? rels).map fun u => if u then r.childE else r.childE ++ "[" ++ r.childV ++ "]"

/-- `entityset/relationship.py:126-140` `RelationshipPath.entities`. -/
def pathEntities (p : RelPath) : List String :=
  (match p with
   | [] => []
   | (fwd, r) :: _ => [if fwd then r.childE else r.parentE]) ++
  p.map fun (fwd, r) => if fwd then r.parentE else r.childE

end FT
