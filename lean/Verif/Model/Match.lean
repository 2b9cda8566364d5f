import Verif.Model.Synth
import Verif.Model.Table
/-!
# Choosing inputs for a primitive

Models `match` and `match_by_type` of `deep_feature_synthesis.py`.
-/
namespace FT

/-- `match_by_type` (`deep_feature_synthesis.py` 876-881). -/
def matchByType (sub : String → String → Bool) (features : List DFeat) (t : String) : List DFeat :=
  features.filter fun f => sub f.vtype t

/-- Putting values into a set that compares them by a key: the first of every key stays. -/
def dedupOn {α κ : Type} [DecidableEq κ] (key : α → κ) : List α → List α
  | [] => []
  | a :: as => a :: (dedupOn key as).filter fun b => decide (key b ≠ key a)

/-- How tuples of features compare in a set: features are hashed by name and entity (`feature_base.py` 170-174) and `==`
gives a feature, which is true. -/
def tupleKey (t : List DFeat) : List String := t.map DFeat.uname

/-- How frozen sets of features compare. -/
def setKey (t : List DFeat) : List String := isort (fun a b => decide (a ≤ b)) (dedup (t.map DFeat.uname))

/-- `copy` in `match` (`deep_feature_synthesis.py` 896-899). -/
def withoutFeature (replace : Bool) (features : List DFeat) (m : DFeat) : List DFeat :=
  if replace then features else features.filter fun c => c.uname != m.uname

/-- `match` without `commutative` (`deep_feature_synthesis.py` 885-918), which is also how it calls itself (903-904). No
input types give no result here; the code raises `IndexError`. -/
def matchTuples (sub : String → String → Bool) (replace : Bool) : List String → List DFeat → Bool → List (List DFeat)
  | [], _, _ => []
  | [t], features, required => ((matchByType sub features t).filter fun m => !required || m.isDirect).map fun m => [m]
  | t :: t' :: ts, features, required =>
    dedupOn tupleKey ((matchByType sub features t).flatMap fun m =>
      (matchTuples sub replace (t' :: ts) (withoutFeature replace features m) (required && !m.isDirect)).map fun r => m :: r)

/-- The ordering of the features of a commutative match (`deep_feature_synthesis.py` 915-916); `setOrder` gives the order
in which the frozen set is iterated. -/
def sortMatch (L : Lang) (t : List DFeat) : List DFeat :=
  isort (fun a b => decide (L.lower a.name ≤ L.lower b.name)) (L.setOrder (dedupOn DFeat.uname t))

/-- `match` with `commutative=True` and at least two input types (`deep_feature_synthesis.py` 893-918). -/
def matchSets (L : Lang) (replace : Bool) (t : String) (ts : List String) (features : List DFeat) (required : Bool) :
    List (List DFeat) :=
  (dedupOn setKey ((matchByType L.sub features t).flatMap fun m =>
    (matchTuples L.sub replace ts (withoutFeature replace features m) (required && !m.isDirect)).map fun r => m :: r)).map
      (sortMatch L)

/-- `match` (`deep_feature_synthesis.py` 885-918). -/
def matchInputs (L : Lang) (types : List String) (features : List DFeat) (replace commutative required : Bool) :
    List (List DFeat) :=
  match types with
  | [] => []
  | [t] => matchTuples L.sub replace [t] features required
  | t :: ts => if commutative then matchSets L replace t ts features required else matchTuples L.sub replace (t :: ts) features required

end FT
