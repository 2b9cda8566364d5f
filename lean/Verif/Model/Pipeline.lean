import Verif.Model.DfsMatrix
import Verif.Model.EntitySet
/-!
# `dfs` on an entity set

`synthesis/dfs.py` hands one entity set to `DeepFeatureSynthesis` (246-258) and to `calculate_feature_matrix` (279-291). The models of
the two look at different parts of it: the synthesis at the variables, their types and interesting values, the calculator at the data.
Here both parts are taken from the same entity set.
-/
namespace FT

/-- What the classes of variables decide: the name of the class for a type string (`variable_types/variable.py` 7-26), and whether it
is `Index`, `Id`, `TimeIndex` or a subclass of them. -/
structure VarClasses where
  cls : String → String
  key : String → Bool

/-- What the synthesis sees of an entity: ids, index, and for every variable its name, class and interesting values
(`deep_feature_synthesis.py` 504-528, 531-554). -/
def synthEnt (T : VarClasses) (x : Entity) : DEnt :=
  { id := x.id, index := x.index
    vars := x.vars.map fun v => { id := v.id, name := v.name.getD v.id, type := T.cls v.type, interesting := v.interesting } }

/-- What the calculator sees of an entity (`entity.py` 39-82, `query_by_values` 157-237). -/
def calcEnt (x : Entity) : Ent :=
  { id := x.id, index := x.index, timeIndex := x.timeIndex, secondary := x.secondary, lti := x.lti, df := x.df.toTable }

/-- The variables of `_necessary_columns` (`feature_set_calculator.py` 752-756). -/
def keyVars (T : VarClasses) (x : Entity) : List String := (x.vars.filter fun v => T.key v.type).map Var.id

/-- The entity set of a calculation; time, window and the like come from the call. -/
def calcEnv (T : VarClasses) (es : ESet) (env : Env) : Env :=
  { env with
    rels := es.rels
    ent := fun e => (es.get? e).map calcEnt
    keyCols := fun e => ((es.get? e).map (keyVars T)).getD [] }

/-- `dfs(entityset=es, …, features_only=True)` (`dfs.py` 246-275). -/
def dfsFeaturesOn (L : Lang) (equalScalar : Val → Prim) (T : VarClasses) (es : ESet) (a : DfsArgs) : Except DfsErr (List DFeat) :=
  dfsFeatures L equalScalar (es.entities.map (synthEnt T)) es.rels a

/-- `dfs(entityset=es, …)` (`dfs.py` 246-292). -/
def dfsOn (L : Lang) (equalScalar : Val → Prim) (T : VarClasses) (R : Reading) (es : ESet) (a : DfsArgs) (c : CfmArgs) :
    Except DfsErr (Matrix × List DFeat) :=
  dfsMatrix L equalScalar (es.entities.map (synthEnt T)) R a { c with env := calcEnv T es c.env }

end FT
