import Verif.Model.Dfs
/-!
# A call of Deep Feature Synthesis

Models the constructor of `DeepFeatureSynthesis` and the call of `build_features`, on the arguments the user gives.
-/
namespace FT

/-- The arguments of `DeepFeatureSynthesis` (`deep_feature_synthesis.py` 127-143) and of `build_features`. Primitives are
instances (strings and classes have been replaced, 205-248), all of them compatible with the library of the entity set;
`options` is `primitive_options` after `_init_primitive_options`; no `ignore_entities` is the same as an empty list. -/
structure DfsArgs where
  target : String
  maxDepth : Int
  aggs : List Prim
  trans : List Prim
  wheres : List Prim
  groupbys : List Prim
  allowedPaths : List (List String)
  ignoreEntities : List String
  ignoreVariables : VarDict
  options : List (PKey × List POption)
  seeds : List DFeat
  whereLimit : Int
  sel : Selection

/-- `sort()` of a list of primitives (`primitive_base.py` 56-57). -/
def sortPrims (ps : List Prim) : List Prim := isort (fun a b => decide (a.name ++ a.argStr ≤ b.name ++ b.argStr)) ps

/-- `DeepFeatureSynthesis.__init__` (`deep_feature_synthesis.py` 145-266). A primitive that is no transform primitive stands for
an aggregation primitive, and the other way round. -/
def configure (L : Lang) (equalScalar : Val → Prim) (ents : List DEnt) (rels : List Relationship) (a : DfsArgs) : Except DfsErr Synth :=
  if !ents.any (fun d => d.id == a.target) then .error (.py .keyError)
  else if a.ignoreEntities.contains a.target then .error (.py .assertionError)
  else if a.aggs.any fun p => p.transform then .error (.py .valueError)
  else if (a.trans ++ a.groupbys).any fun p => !p.transform then .error (.py .valueError)
  else
    let prims := sortPrims a.trans ++ sortPrims a.aggs ++ sortPrims a.wheres ++ sortPrims a.groupbys
    .ok { L := L, ents := ents, rels := rels, aggs := sortPrims a.aggs, trans := sortPrims a.trans, wheres := sortPrims a.wheres, groupbys := sortPrims a.groupbys, opts := optionsFor a.options a.ignoreEntities a.ignoreVariables, ignoreEnts := globalEntities a.options prims a.ignoreEntities, ignoreVars := globalVars a.options prims a.ignoreVariables, allowedPaths := a.allowedPaths, seeds := isort (fun f g => decide (f.uname ≤ g.uname)) a.seeds, whereLimit := a.whereLimit, equalScalar := equalScalar }

/-- `DeepFeatureSynthesis(…).build_features(…)`, which `dfs(features_only=True)` returns (`dfs.py` 246-260, 274-275). -/
def dfsFeatures (L : Lang) (equalScalar : Val → Prim) (ents : List DEnt) (rels : List Relationship) (a : DfsArgs) :
    Except DfsErr (List DFeat) :=
  match configure L equalScalar ents rels a with
  | .error e => .error e
  | .ok S => buildFeatures S a.target a.maxDepth a.sel

end FT
