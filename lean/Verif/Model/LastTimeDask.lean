import Verif.Model.LastTime
/-!
# Last time indexes of Dask entity sets

Models the Dask branches of `EntitySet.add_last_time_indexes` (`entityset.py` 763-906). Everything but the contribution of a
child is as for pandas; the functions are written out again because they call each other. Simplification: the rows of a Dask
data frame have an order, and joins keep it. Koalas is not modelled.
-/
namespace FT

/-- The later of two times; a missing one does not count (`agg('max')`, `entityset.py` 867). -/
def maxTime : Val → Val → Val
  | .num a, .num b => .num (max a b)
  | .null, b => b
  | a, _ => a

/-- The times of the child rows beside the link column (`entityset.py` 854-860): the last time index joined with the column by
index value. -/
def linkedTimes (c : Entity) (v : String) (cl : Lti) : List (Val × Val) :=
  cl.flatMap fun p => (c.df.rows.filter fun r => decide (r c.index = p.1)).map fun r => (r v, p.2)

/-- `groupby(...).agg('max')` (`entityset.py` 867) and what the join finds in it for an index value (`entityset.py` 869):
rows without a link are in no group. -/
def groupMax (rows : List (Val × Val)) (k : Val) : Val :=
  if k = .null then .null else ((rows.filter fun p => decide (p.1 = k)).map (·.2)).foldl maxTime .null

/-- One child's contribution on Dask (`entityset.py` 853-903). -/
def updateFromDask (c : Entity) (v : String) (cl : Lti) (l : Lti) : Lti :=
  l.map fun p => (p.1, laterTime (groupMax (linkedTimes c v cl) p.1) p.2)

/-- On Dask. The contributions of all children (`entityset.py` 846-903). -/
def updateAllDask (es : ESet) (lti : String → Option Lti) (e : String) : List String → Lti → Lti
  | [], l => l
  | c :: cs, l =>
    match es.get? c, linkVar es.rels e c, lti c with
    | some x, some v, some cl => updateAllDask es lti e cs (updateFromDask x v cl l)
    | _, _, _ => updateAllDask es lti e cs l

/-- On Dask. One round of the loop (`entityset.py` 809-905), for the entity taken from the queue: if its children are explored, it is
done; otherwise they are put on the queue, unless they are on it, and the entity after them. -/
def ltiRoundDask (es : ESet) (e : String) (x : Entity) (q : List String) (st : LtiState) : LtiState :=
  let l := (st.lti e).getD (ownTimes x)
  let cs := ltiChildren es.rels e
  if cs.all fun c => st.explored.contains c then
    { queue := q, explored := st.explored ++ [e], lti := fun e' => if e' = e then some (updateAllDask es st.lti e cs l) else st.lti e' }
  else
    { queue := q ++ dedup (cs.filter fun c => !st.explored.contains c && !q.contains c) ++ [e], explored := st.explored
      lti := fun e' => if e' = e then some l else st.lti e' }

/-- On Dask. The loop (`entityset.py` 808-905), until the entities `todo` are explored: `none` when the fuel is used up, or when the
queue is empty (an `IndexError`). -/
def ltiLoopDask (es : ESet) (todo : List String) : Nat → LtiState → Option LtiState
  | 0, _ => none
  | n + 1, st =>
    if todo.all fun e => st.explored.contains e then some st
    else match st.queue with
      | [] => none
      | e :: q => match es.get? e with
        | none => none
        | some x => ltiLoopDask es todo n (ltiRoundDask es e x q st)

/-- On Dask. The loop over the queue and what it leaves behind (`entityset.py` 799-906); `queue` is also what is to be explored. -/
def ltiRunDask (es : ESet) (fuel : Nat) (queue : List String) : Option ESet :=
  match ltiLoopDask es queue fuel
    { queue := queue, explored := [], lti := fun e => if queue.contains e then none else (es.get? e).bind Entity.lti } with
  | none => none
  | some st => some { es with entities := es.entities.map fun x => { x with lti := st.lti x.id }, cache := none }

/-- On Dask. `add_last_time_indexes(updated_entities)` (`entityset.py` 763-906): of all entities, or of the updated ones and their
parents. The order in which Python goes through the set of these is a parameter. -/
def addLastTimeIndexesDask (es : ESet) (order : List String → List String) (updated : List String) (fuel : Nat) : Option ESet :=
  if updated.isEmpty then ltiRunDask es fuel (es.entities.map Entity.id)
  else match parentLoop es.rels fuel updated [] with
    | none => none
    | some parents => ltiRunDask es fuel (order parents)

end FT
