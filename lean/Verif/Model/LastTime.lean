import Verif.Model.EntitySet
/-!
# Last time indexes

Models `EntitySet.add_last_time_indexes` (`entityset.py` 763-906) for pandas entities.  Times are `Val.num` (nanoseconds since
1970), missing ones `Val.null`.  A last time index is a list with an index value and a time for every row; the index of a
data frame and that of its last time index are taken to be the same (both are the index values of the rows, in their order).
The loops may go on for ever, so they take fuel.
-/
namespace FT

/-- A last time index: for every row the index value and the time. -/
abbrev Lti := List (Val × Val)

/-- `pd.to_datetime('1800-01-01 00:00')` in nanoseconds (`entityset.py` 898). -/
def year1800 : Int := -5364662400000000000

/-- `fillna(1800)` (`entityset.py` 898). -/
def fillTime : Val → Int
  | .num n => n
  | _ => year1800

/-- `fillna(1800)`, `max(axis=1)`, `replace(1800, NaT)` for one row (`entityset.py` 898-899). -/
def laterTime (a b : Val) : Val :=
  if max (fillTime a) (fillTime b) = year1800 then .null else .num (max (fillTime a) (fillTime b))

/-- `children` (`entityset.py` 773-776): the children of an entity, once for each relationship. -/
def ltiChildren (rels : List Relationship) (e : String) : List String := (rels.filter fun r => r.parentE == e).map (·.childE)

/-- `child_vars` (`entityset.py` 774-777): the column that links a child; of several relationships the last one counts. -/
def linkVar (rels : List Relationship) (e c : String) : Option String :=
  (rels.reverse.find? fun r => r.parentE == e && r.childE == c).map (·.childV)

/-- The initial last time index (`entityset.py` 811-827): the times of the rows, or nothing. -/
def ownTimes (x : Entity) : Lti :=
  x.df.rows.map fun r => (r x.index, match x.timeIndex with
    | some t => r t
    | none => .null)

/-- The order in which child rows are sorted (`entityset.py` 876-877): by time, missing times last, and then by link. -/
def byTime (a b : Val × Val) : Bool := if a.2 = b.2 then a.1.sortLe b.1 else a.2.sortLe b.2

/-- The latest child row of each value of the link column (`entityset.py` 872-884): the last one in the order, or a missing
time when there is no child row. -/
def lastChild (rows : List (Val × Val)) (k : Val) : Val :=
  match (isort byTime rows).reverse.find? fun p => decide (p.1 = k) with
  | some p => p.2
  | none => .null

/-- One child's contribution (`entityset.py` 872-903). -/
def updateFrom (c : Entity) (v : String) (cl : Lti) (l : Lti) : Lti :=
  l.map fun p => (p.1, laterTime (lastChild ((c.df.rows.map fun r => r v).zip (cl.map fun p => p.2)) p.1) p.2)

/-- The contributions of all children (`entityset.py` 846-903). -/
def updateAll (es : ESet) (lti : String → Option Lti) (e : String) : List String → Lti → Lti
  | [], l => l
  | c :: cs, l =>
    match es.get? c, linkVar es.rels e c, lti c with
    | some x, some v, some cl => updateAll es lti e cs (updateFrom x v cl l)
    | _, _, _ => updateAll es lti e cs l

/-- The state of the loop: queue, explored entities, last time indexes. -/
structure LtiState where
  queue : List String
  explored : List String
  lti : String → Option Lti

/-- One round of the loop (`entityset.py` 809-905), for the entity taken from the queue: if its children are explored, it is
done; otherwise they are put on the queue, unless they are on it, and the entity after them. -/
def ltiRound (es : ESet) (e : String) (x : Entity) (q : List String) (st : LtiState) : LtiState :=
  let l := (st.lti e).getD (ownTimes x)
  let cs := ltiChildren es.rels e
  if cs.all fun c => st.explored.contains c then
    { queue := q, explored := st.explored ++ [e], lti := fun e' => if e' = e then some (updateAll es st.lti e cs l) else st.lti e' }
  else
    { queue := q ++ dedup (cs.filter fun c => !st.explored.contains c && !q.contains c) ++ [e], explored := st.explored
      lti := fun e' => if e' = e then some l else st.lti e' }

/-- The loop (`entityset.py` 808-905), until the entities `todo` are explored: `none` when the fuel is used up, or when the
queue is empty (an `IndexError`). -/
def ltiLoop (es : ESet) (todo : List String) : Nat → LtiState → Option LtiState
  | 0, _ => none
  | n + 1, st =>
    if todo.all fun e => st.explored.contains e then some st
    else match st.queue with
      | [] => none
      | e :: q => match es.get? e with
        | none => none
        | some x => ltiLoop es todo n (ltiRound es e x q st)

/-- The search for the parents of the updated entities (`entityset.py` 782-791). -/
def parentLoop (rels : List Relationship) : Nat → List String → List String → Option (List String)
  | _, [], seen => some seen
  | 0, _ :: _, _ => none
  | n + 1, e :: q, seen =>
    if seen.contains e then parentLoop rels n q seen
    else parentLoop rels n (q ++ (rels.filter fun r => r.childE == e).map (·.parentE)) (seen ++ [e])

/-- The loop over the queue and what it leaves behind (`entityset.py` 799-906); `queue` is also what is to be explored. -/
def ltiRun (es : ESet) (fuel : Nat) (queue : List String) : Option ESet :=
  match ltiLoop es queue fuel
    { queue := queue, explored := [], lti := fun e => if queue.contains e then none else (es.get? e).bind Entity.lti } with
  | none => none
  | some st => some { es with entities := es.entities.map fun x => { x with lti := st.lti x.id }, cache := none }

/-- `add_last_time_indexes(updated_entities)` (`entityset.py` 763-906): of all entities, or of the updated ones and their
parents. The order in which Python goes through the set of these is a parameter. -/
def addLastTimeIndexes (es : ESet) (order : List String → List String) (updated : List String) (fuel : Nat) : Option ESet :=
  if updated.isEmpty then ltiRun es fuel (es.entities.map Entity.id)
  else match parentLoop es.rels fuel updated [] with
    | none => none
    | some parents => ltiRun es fuel (order parents)

end FT
