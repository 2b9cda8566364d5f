import Verif.Model.EntitySetEq
import Verif.Model.LastTime
/-!
# Last time indexes when data changes

Models what `EntitySet.concat` and `Entity.update_data` do about last time indexes, on top of `concat`, `updateData` and
`addLastTimeIndexes`; pandas only. `none`: the loop over the entities did not end within the fuel, or failed.
-/
namespace FT

/-- `has_last_time_index` (`entityset.py` 734, 750-752): the entities with a last time index in one of the entity sets. -/
def hasLast (self other : ESet) : List String :=
  (self.entities.filter fun x => x.lti.isSome || ((other.get? x.id).bind Entity.lti).isSome).map Entity.id

/-- `concat` (`entityset.py` 711-758), with last time indexes. -/
def concatLast (lib : Lib) (self other : ESet) (order : List String → List String) (fuel : Nat) : Option (ESet × Option PyErr) :=
  match concat lib self other with
  | (es, some e) => some (es, some e)
  | (es, none) => (addLastTimeIndexes es order (hasLast self other) fuel).map fun es => (es, none)

/-- `update_data` (`entity.py` 265-290) with `recalculate_last_time_indexes=True`: if the entity had a last time index, it and
those of its parents are worked out anew. -/
def updateDataLast (lib : Lib) (es : ESet) (e : String) (df : DataFrame) (sorted : Bool) (order : List String → List String) (fuel : Nat) :
    Option (ESet × Option PyErr) :=
  match updateData lib es e df sorted with
  | (es, some err) => some (es, some err)
  | (es, none) =>
    if ((es.get? e).bind Entity.lti).isSome then (addLastTimeIndexes es order [e] fuel).map fun es => (es, none)
    else some (es, none)

end FT
