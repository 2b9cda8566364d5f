import Verif.Model.Pipeline
import Verif.Model.FeatureFile
/-!
# Saving the features of `dfs` and using them later

`features = dfs(entityset=es, features_only=True)`, `save_features(features, path)`, `load_features(path)` and
`calculate_feature_matrix(features, entityset=es')`. Saving looks at other parts of a feature than the synthesis and the calculator do;
`storedFeat` and `loadedFeat` go from one description of the same objects to the other.
-/
namespace FT

/-- What `save_features` looks at in the class of a feature (`feature_base.py` 372-377, 468-474, 623-631, 676-681, 727-736, 804-809). The
type of a variable is not stored with the feature. The synthesis never sets `use_previous` (`deep_feature_synthesis.py` 714-716,
745-748). `P` gives the class and the arguments of a primitive object. -/
def storedKind (P : Prim → PInst) : DKind → SKind
  | .identity v _ => .identity v
  | .direct r => .direct r
  | .agg path p => .agg (path.map Prod.snd) (P p) none
  | .trans p => .trans (P p)
  | .groupby p => .groupby (P p)
  | .slice n => .slice n

mutual
/-- A feature as `save_features` sees it. -/
def storedFeat (P : Prim → PInst) : DFeat → SFeat
  | .mk k e n bases wh => .mk (storedKind P k) e n (storedFeats P bases) (storedFeats P wh)
/-- The features of a list. -/
def storedFeats (P : Prim → PInst) : List DFeat → List SFeat
  | [] => []
  | f :: fs => storedFeat P f :: storedFeats P fs
end

/-- `entityset[entity][variable]`, if it is there (`entityset.py` 128-142, `entity.py` 156-177). -/
def varIn (ents : List DEnt) (e v : String) : Option DVar :=
  match ents.find? fun d => d.id == e with
  | none => none
  | some d => d.vars.find? fun x => x.id == v

/-- What a feature made by `from_dictionary` is for the synthesis and the calculator (`feature_base.py` 355-360, 429-437, 568-585, 661-665,
700-705, 811-817): the type of an identity feature is that of the variable in the entity set it is loaded with, and all steps of a path
go backward (574). `Q` gives the primitive object of a class with arguments. -/
def loadedKind (Q : PInst → Prim) (ents : List DEnt) (e : String) : SKind → DKind
  | .identity v => .identity v (((varIn ents e v).map DVar.type).getD "")
  | .direct r => .direct r
  | .agg path p _ => .agg (path.map fun r => (false, r)) (Q p)
  | .trans p => .trans (Q p)
  | .groupby p => .groupby (Q p)
  | .slice n => .slice n

mutual
/-- A loaded feature as the synthesis and the calculator see it. -/
def loadedFeat (Q : PInst → Prim) (ents : List DEnt) : SFeat → DFeat
  | .mk k e n bases wh => .mk (loadedKind Q ents e k) e n (loadedFeats Q ents bases) (loadedFeats Q ents wh)
/-- The features of a list. -/
def loadedFeats (Q : PInst → Prim) (ents : List DEnt) : List SFeat → List DFeat
  | [] => []
  | f :: fs => loadedFeat Q ents f :: loadedFeats Q ents fs
end

/-- `load_features` (`features_deserializer.py` 67-69, 104-129) with an entity set that has these variables. -/
def loadOn (Q : PInst → Prim) (T : VarClasses) (root : ClassTree) (limit : Nat) (es : ESet) (file : FeatureFile) :
    Except PyErr (List DFeat) :=
  (loadFeatures (fun e v => (varIn (es.entities.map (synthEnt T)) e v).isSome) root limit file).map
    (loadedFeats Q (es.entities.map (synthEnt T)))

/-- `calculate_feature_matrix(load_features(path), entityset=data, …)` (`calculate_feature_matrix.py` 41-299): the features were loaded with
the entity set `desc`, the stored description of the one they were made with. -/
def matrixFromFile (L : Lang) (Q : PInst → Prim) (T : VarClasses) (R : Reading) (root : ClassTree) (limit : Nat) (desc data : ESet)
    (file : FeatureFile) (c : CfmArgs) : Except DfsErr (Matrix × List DFeat) :=
  match loadOn Q T root limit desc file with
  | .error e => .error (.py e)
  | .ok fs =>
    match calculateFeatureMatrix { c with env := calcEnv T data c.env, features := fs.map (readFeat R L data.rels) } with
    | .error e => .error (.py e)
    | .ok m => .ok (m, fs)

end FT
