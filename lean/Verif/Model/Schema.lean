import Verif.Model.Basic
import Verif.Model.ListAux
/-!
# Path search over the relationship graph

Models `featuretools/entityset/entityset.py:298-430`.
-/
namespace FT

/-- Measure of the recursion of `_forward_entity_paths`: relationships whose child has not been seen. -/
def unseenChildren (rels : List Relationship) (seen : List String) : Nat :=
  (rels.filter fun r => !seen.contains r.childE).length

theorem unseenChildren_lt {rels : List Relationship} {seen : List String} {e : String} {r : Relationship}
    (hs : seen.contains e = false) (hr : r ∈ getForwardRelationships rels e) :
    unseenChildren rels (e :: seen) < unseenChildren rels seen := by
  have hr' := List.mem_filter.mp hr
  have hce : r.childE = e := by simpa using hr'.2
  refine filter_length_lt (a := r) ?_ hr'.1 ?_ ?_
  · intro x hx
    simp only [List.contains_cons, Bool.not_or, Bool.and_eq_true] at hx
    exact hx.2
  · simpa [hce] using hs
  · simp [hce]

/-- `entityset/entityset.py:330-354` `_forward_entity_paths`. The `seen_entities` set is a list; it is copied for each
recursive call (line 352), which is what passing a value does. The recursion is accepted by the termination checker with
the measure `unseenChildren`, for every relationship list, cyclic or not. -/
def forwardEntityPaths (rels : List Relationship) (seen : List String) (e : String) :
    List (String × List Relationship) :=
  if hs : seen.contains e then []
  else (e, []) :: (getForwardRelationships rels e).attach.flatMap fun ⟨r, _hr⟩ =>
    (forwardEntityPaths rels (e :: seen) r.parentE).map fun (x, p) => (x, r :: p)
termination_by unseenChildren rels seen
decreasing_by exact unseenChildren_lt (by simpa using hs) _hr

/-- `entityset/entityset.py:298-312`. -/
def findForwardPaths (rels : List Relationship) (start goal : String) : List (List Relationship) :=
  (forwardEntityPaths rels [] start).filterMap fun (x, p) => if x == goal then some p else none

/-- `entityset/entityset.py:314-328`. -/
def findBackwardPaths (rels : List Relationship) (start goal : String) : List (List Relationship) :=
  (findForwardPaths rels goal start).map List.reverse

inductive PathError | stopIteration
deriving DecidableEq, Repr

/-- `entityset/entityset.py:419-430`. `next(paths)` raises `StopIteration` without a path; the result is
`not second_path`, so an empty second path would count as "no second path" (line 430). -/
def hasUniqueForwardPath (rels : List Relationship) (start goal : String) : Except PathError Bool :=
  match findForwardPaths rels start goal with
  | [] => .error .stopIteration
  | [_] => .ok true
  | _ :: second :: _ => .ok second.isEmpty

/-- Run `f` on every element and concatenate, failing if one call fails. -/
def collect {α β : Type} (f : α → Option (List β)) : List α → Option (List β)
  | [] => some []
  | a :: as => do
    let x ← f a
    let y ← collect f as
    pure (x ++ y)

/-- `entityset/entityset.py:356-374` `get_forward_entities(entity_id, deep=False)`. -/
def getForwardEntities (rels : List Relationship) (e : String) : List (String × RelPath) :=
  (getForwardRelationships rels e).map fun r => (r.parentE, [(true, r)])

/-- `entityset/entityset.py:376-394` `get_backward_entities(entity_id, deep=False)`. -/
def getBackwardEntities (rels : List Relationship) (e : String) : List (String × RelPath) :=
  (getBackwardRelationships rels e).map fun r => (r.childE, [(false, r)])

/-- `entityset/entityset.py:356-374` with `deep=True`: there is no cycle check, so the recursion depth is bounded only
by the explicit fuel; `none` = fuel exhausted (the generator has not finished). -/
def deepForwardEntities (rels : List Relationship) : Nat → String → Option (List (String × RelPath))
  | 0, _ => none
  | n + 1, e => collect (fun r => do
      let sub ← deepForwardEntities rels n r.parentE
      pure ((r.parentE, [(true, r)]) :: sub.map fun (x, p) => (x, [(true, r)] ++ p)))
      (getForwardRelationships rels e)

/-- `entityset/entityset.py:376-394` with `deep=True`. -/
def deepBackwardEntities (rels : List Relationship) : Nat → String → Option (List (String × RelPath))
  | 0, _ => none
  | n + 1, e => collect (fun r => do
      let sub ← deepBackwardEntities rels n r.childE
      pure ((r.childE, [(false, r)]) :: sub.map fun (x, p) => (x, [(false, r)] ++ p)))
      (getBackwardRelationships rels e)

end FT
