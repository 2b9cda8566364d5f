import Verif.Model.DfsRun
import Verif.Model.Cfm
import Verif.Model.Schema
/-!
# A whole call of `dfs`

Models `dfs` (`synthesis/dfs.py` 246-292): the features are built by Deep Feature Synthesis and then given to
`calculate_feature_matrix`. The first part of the model (`Model/Dfs.lean`) describes features by what the synthesis looks at, the
second (`Model/Cfm.lean`) by what the calculator looks at; in the code they are the same objects. `readFeat` reads a feature of
the first kind as one of the second.
-/
namespace FT

/-- What the calculator uses of a primitive object and the synthesis does not: the functions (`get_function`, `uses_calc_time`,
`uses_full_entity`) and `default_value` (`primitive_base.py` 17-39, `aggregation_primitive_base.py` 9-14,
`transform_primitive_base.py` 4-8). -/
structure Reading where
  agg : Prim → AggPrim
  trans : Prim → TransPrim
  dflt : Prim → Val

/-- `get_feature_names()` (`feature_base.py` 86-94); the name of an output slice is the name of that output (797-798). -/
def readNames (L : Lang) (f : DFeat) : List String :=
  if f.outputs = 1 then [f.name] else (List.range f.outputs).map (L.namer.slice f)

/-- `default_value` (`feature_base.py` 202-204, 436-437): that of the primitive, that of the base feature for a direct feature. An
identity feature has that of `PrimitiveBase`, which is `NaN` (`primitive_base.py` 23). -/
def readDefault (R : Reading) : DFeat → Val
  | .mk (.direct _) _ _ (b :: _) _ => readDefault R b
  | .mk (.identity _ _) _ _ _ _ => .null
  | f => R.dflt f.prim

/-- `_path_is_unique` (`feature_base.py` 551-552, `entityset.py` 419-430), for the path of a feature of entity `parent`; along a
path that is there `has_unique_forward_path` does not raise. -/
def readUnique (rels : List Relationship) (parent : String) (path : RelPath) : Bool :=
  match hasUniqueForwardPath rels ((path.getLast?.map fun x => x.2.childE).getD parent) parent with
  | .ok b => b
  | .error _ => false

/-- The class of a feature with what belongs to it. The synthesis never sets `use_previous`
(`deep_feature_synthesis.py` 714-716, 745-748). -/
def readKind (R : Reading) (rels : List Relationship) (entity : String) : DKind → Kind
  | .identity v _ => .identity v
  | .direct r => .direct r
  | .agg path p => .agg (path.map Prod.snd) (R.agg p) none (readUnique rels entity path)
  | .trans p => .trans (R.trans p)
  | .groupby p => .groupby (R.trans p)
  | .slice n => .slice n

mutual
/-- A feature of the synthesis as the calculator sees it (`feature_base.py` 41-58, 81-97, 202-204, 335-339). -/
def readFeat (R : Reading) (L : Lang) (rels : List Relationship) : DFeat → Feat
  | .mk k e n bases wh =>
    .mk ⟨e, n, readNames L (.mk k e n bases wh), readDefault R (.mk k e n bases wh), readKind R rels e k⟩
      (readFeats R L rels bases) (readFeats R L rels wh)
/-- The features of a list. -/
def readFeats (R : Reading) (L : Lang) (rels : List Relationship) : List DFeat → List Feat
  | [] => []
  | f :: fs => readFeat R L rels f :: readFeats R L rels fs
end

/-- `dfs(…)` without `features_only` (`dfs.py` 246-292): the matrix and the features. The entity set exists already, the warning
about unused primitives is `C47`. The `features` of the arguments of `calculate_feature_matrix` are ignored. -/
def dfsMatrix (L : Lang) (equalScalar : Val → Prim) (ents : List DEnt) (R : Reading) (a : DfsArgs) (c : CfmArgs) :
    Except DfsErr (Matrix × List DFeat) :=
  match dfsFeatures L equalScalar ents c.env.rels a with
  | .error e => .error e
  | .ok fs =>
    match calculateFeatureMatrix { c with features := fs.map (readFeat R L c.env.rels) } with
    | .error e => .error (.py e)
    | .ok m => .ok (m, fs)

end FT
