import Verif.Model.Basic
import Verif.Model.Table
import Verif.Model.Timedelta
/-!
# Feature definitions

Models `featuretools/feature_base/feature_base.py`.  A feature is a finite tree: its own description
(`Info`), the features it is computed from and the optional condition.  Primitives are opaque functions;
entities and relationships are referred to by name.
-/
namespace FT

/-- An aggregation primitive (`primitives/base/aggregation_primitive_base.py`): what the calculator uses of it.
`fn calcTime columns` is the function applied to the argument columns of one group and gives one value per output
(`get_function`, and `calc_time` when `uses_calc_time` is set, `feature_set_calculator.py` 776-797). -/
structure AggPrim where
  usesCalcTime : Bool
  fn : Int → List (List Val) → List Val

/-- A transform primitive (`primitives/base/transform_primitive_base.py`): `fn time columns` gives one column per
output; `usesFull` is `uses_full_entity`, `usesCalcTime` is `uses_calc_time`. -/
structure TransPrim where
  usesFull : Bool
  usesCalcTime : Bool
  fn : Int → List (List Val) → List (List Val)

/-- The feature classes of `feature_base.py`: `IdentityFeature` (342-380), `DirectFeature` (383-477),
`AggregationFeature` (480-637, with its path, primitive, `use_previous.times`, and `_path_is_unique`),
`TransformFeature` (640-681), `GroupByTransformFeature` (684-736; the group-by feature is the last base feature),
`FeatureOutputSlice` (768-820). -/
inductive Kind where
  | identity (var : String)
  | direct (rel : Relationship)
  | agg (path : List Relationship) (prim : AggPrim) (prev : Option (Dict Int)) (pathUnique : Bool)
  | trans (prim : TransPrim)
  | groupby (prim : TransPrim)
  | slice (n : Nat)

/-- What a feature says about itself: `entity_id`, `get_name()`, `get_feature_names()`, `default_value`, and its class. -/
structure Info where
  entity : String
  name : String
  names : List String
  dflt : Val
  kind : Kind

/-- A feature: itself, its `base_features` and its `where` feature (an empty list or a single feature). -/
inductive Feat where
  | mk (info : Info) (bases : List Feat) (wh : List Feat)

namespace Feat

def info : Feat → Info | .mk i _ _ => i
/-- `base_features` -/
def bases : Feat → List Feat | .mk _ b _ => b
/-- `where` -/
def wh : Feat → List Feat | .mk _ _ w => w
/-- `entity_id` -/
def entity (f : Feat) : String := f.info.entity
/-- `get_name()` (`feature_base.py` 81-84) -/
def name (f : Feat) : String := f.info.name
/-- `get_feature_names()` (`feature_base.py` 86-94) -/
def names (f : Feat) : List String := f.info.names
/-- `default_value` (`feature_base.py` 202-204, 442-444) -/
def dflt (f : Feat) : Val := f.info.dflt
/-- the class of the feature -/
def kind (f : Feat) : Kind := f.info.kind

/-- `unique_name()` (`feature_base.py` 335-336). -/
def uniqueName (f : Feat) : String := f.entity ++ ": " ++ f.name

end Feat

/-- The `relationship_path` each constructor sets (`feature_base.py` 350, 397, 532, 657). -/
def Kind.path : Kind → RelPath
  | .direct r => [(true, r)]
  | .agg p _ _ _ => p.map fun r => (false, r)
  | _ => []

/-- `relationship_path`; an output slice has that of its base feature (`feature_base.py` 793). -/
def Feat.path (f : Feat) : RelPath :=
  match f.kind, f.bases with
  | .slice _, b :: _ => b.kind.path
  | k, _ => k.path

/-- `get_dependencies()` (`feature_base.py` 99-126, `deep=False`, nothing ignored). -/
def Feat.deps (f : Feat) : List Feat := f.bases ++ f.wh

mutual
/-- `get_dependencies(deep=True, ignored)` (`feature_base.py` 99-126): the direct dependencies that are not ignored,
followed by the deep dependencies of each of them. -/
def deepDeps (ignored : List String) : Feat → List Feat
  | .mk _ bases wh =>
    (bases ++ wh).filter (fun d => !ignored.contains d.uniqueName) ++ (deepDepsList ignored bases ++ deepDepsList ignored wh)
/-- The loop over the direct dependencies in `get_dependencies`. -/
def deepDepsList (ignored : List String) : List Feat → List Feat
  | [] => []
  | d :: ds => (if ignored.contains d.uniqueName then [] else deepDeps ignored d) ++ deepDepsList ignored ds
end

/-- `isinstance(f, IdentityFeature)` -/
def Feat.isIdentity (f : Feat) : Bool := match f.kind with | .identity _ => true | _ => false

/-- `get_depth(stop_at)` (`feature_base.py` 128-139; 370-371 for identity features), with a recursion bound: the
recursion is over the deep dependencies, which are smaller trees (`C21_depth_terminates` shows the bound
`Feat.size` is never reached). -/
def getDepthFuel (stop : List String) : Nat → Feat → Nat
  | 0, _ => 0
  | n + 1, f =>
    if f.isIdentity then 0
    else if stop.contains f.uniqueName then 0
    else (deepDeps stop f).foldl (fun m d => max (getDepthFuel stop n d) m) 0 + 1

mutual
/-- Number of features in the tree. -/
def Feat.size : Feat → Nat
  | .mk _ bases wh => 1 + (Feat.sizeList bases + Feat.sizeList wh)
def Feat.sizeList : List Feat → Nat
  | [] => 0
  | d :: ds => d.size + Feat.sizeList ds
end

/-- `get_depth(stop_at)`. -/
def getDepth (stop : List String) (f : Feat) : Nat := getDepthFuel stop f.size f

/-- `RelationshipPath.name` (`relationship.py` 119-124, 171-175). -/
def pathName (rels : List Relationship) (p : RelPath) : String :=
  String.intercalate "." (p.map fun (fwd, r) => ((if fwd then r.parentName? rels else r.childName? rels).getD ""))

/-- `relationship_path_name()` (`feature_base.py` 338-339, 633-637). -/
def Feat.pathName (rels : List Relationship) (f : Feat) : String :=
  match f.kind with
  | .agg _ _ _ true => (f.bases.head?.map Feat.entity).getD ""
  | _ => FT.pathName rels f.path

/-- `FeatureSet.uses_full_entity(feature)` (`feature_set.py` 192-195; group-by features are transform features). -/
def Feat.usesFull (f : Feat) : Bool :=
  match f.kind with
  | .trans p => p.usesFull
  | .groupby p => p.usesFull
  | _ => false

end FT
