import Verif.Model.Synth
import Verif.Model.Table
/-!
# The report of unused primitives

Models `_categorize_features` and `get_unused_primitives` of `synthesis/dfs.py`.
-/
namespace FT

/-- The four sets of `_categorize_features` and the names explored (`dfs.py` 322-327). -/
structure Usage where
  transform : List String := []
  agg : List String := []
  groupby : List String := []
  whered : List String := []
  explored : List String := []

/-- Recording a feature that is no output slice (`dfs.py` 337-349). -/
def record (f : DFeat) (u : Usage) : Usage :=
  let u := match f.kind with
    | .agg _ p => if f.wh.isEmpty then { u with agg := p.name :: u.agg } else { u with whered := p.name :: u.whered }
    | .groupby p => { u with groupby := p.name :: u.groupby }
    | .trans p => { u with transform := p.name :: u.transform }
    | _ => u
  { u with explored := f.name :: u.explored }

mutual
/-- `get_feature_data` (`dfs.py` 329-352): a slice stands for the feature it is taken from. -/
def exploreFeature : DFeat → Usage → Usage
  | .mk (.slice _) _ n (.mk k e n' bases wh :: _) _, u =>
    if u.explored.contains n then u
    else exploreAll wh (exploreAll bases (record (.mk k e n' bases wh) u))
  | .mk k e n bases wh, u =>
    if u.explored.contains n then u
    else exploreAll wh (exploreAll bases (record (.mk k e n bases wh) u))
/-- The loop over the dependencies (`dfs.py` 351-352), and over the features (354-355). -/
def exploreAll : List DFeat → Usage → Usage
  | [], u => u
  | f :: fs, u => exploreAll fs (exploreFeature f u)
end

/-- `_categorize_features` (`dfs.py` 320-357). -/
def categorize (fs : List DFeat) : Usage := exploreAll fs {}

/-- How the user names a primitive: by a text, or by a class or an instance, which has a name. -/
inductive Named where
  | text (s : String)
  | object (name : String)

def Named.name : Named → String | text s => s | object n => n

/-- `get_unused_primitives` (`dfs.py` 294-299); no list is the same as an empty one. -/
def unusedPrimitives (specified : List Named) (used : List String) : List String :=
  isort (fun a b => decide (a ≤ b)) ((dedup (specified.map Named.name)).filter fun n => !used.contains n)

/-- What `dfs` warns about (`dfs.py` 263-270): transform, aggregation, group-by and where primitives. -/
def unusedReport (trans agg groupby wheres : List Named) (fs : List DFeat) : List (List String) :=
  let u := categorize fs
  [unusedPrimitives trans u.transform, unusedPrimitives agg u.agg, unusedPrimitives groupby u.groupby, unusedPrimitives wheres u.whered]

end FT
