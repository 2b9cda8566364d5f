import Verif.Model.Calculator
import Verif.Model.Aggregate
/-!
# The feature set calculator on Dask entity sets

Models the Dask branches of `featuretools/computational_backends/feature_set_calculator.py` and of
`EntitySet.query_by_values` (`featuretools/entityset/entityset.py` 974-1091).  A Dask data frame is a table whose rows come
in no particular order after a merge; the order, and how the rows of a group are spread over partitions, are chosen by an
`Arrange`ment.  Frames are lazy: nothing is decided by looking at the rows, so the tests for empty frames of the pandas code
are not there.  Divisions, the scheduler and dtypes are not modelled.
-/
namespace FT

/-- What Dask is free to choose, and the Dask versions of the aggregation primitives.  `order p k` is the order of the rows
after merge number `k` at the node with path `p`; `split p f id` tells how a column of the group `id` is spread over the
partitions when feature `f` is computed; `version` is `get_function(agg_type=Library.DASK)`, if there is one. -/
structure Arrange where
  order : List Edge → Nat → List Row → List Row
  split : List Edge → String → Val → List Val → List (Parts Val)
  version : AggPrim → Option (List (Parts Val) → Val)

/-- `entity.df.merge(instance_vals.to_frame(), how="inner", on=variable_id)` (`entityset.py` 1066-1067): a row for every
row and value that agree. -/
def innerJoin (var : String) (vals : List Val) (rows : List Row) : List Row :=
  rows.flatMap fun r => (vals.filter fun v => v = r var).map fun _ => r

/-- The choice of rows in `query_by_values` for a Dask entity (`entityset.py` 1058-1071): all rows; `isin` for the instances
asked for by the user (`root`); a merge for the values of a Dask column. -/
def daskSelect (A : Arrange) (p : List Edge) (e : Ent) (vals : Option (List Val)) (var : String) : Except PyErr (List Row) :=
  match vals with
  | none => .ok e.df.rows
  | some vs =>
    if e.df.cols.contains var then
      .ok (if p.isEmpty then e.df.rows.filter fun r => vs.contains (r var) else A.order p 0 (innerJoin var vs e.df.rows))
    else .error .keyError

/-- `query_by_values` (`entityset.py` 1026-1091) on a Dask entity.  `_handle_time` filters and blanks the same rows as for
pandas: its tests for empty frames change nothing. -/
def daskQuery (A : Arrange) (p : List Edge) (e : Ent) (vals : Option (List Val)) (var : String) (columns : List String)
    (timeLast : Option Int) (includeCutoff : Bool) : Except PyErr Table :=
  match daskSelect A p e (valsToSeries vals) var with
  | .error e => .error e
  | .ok rows =>
    match handleTime e rows timeLast none includeCutoff with
    | .error e => .error e
    | .ok rows => selectColumns e (some columns) rows

/-- `left.merge(right, how='left')`: a row for every matching row on the right, and a row of missing values when there is none. -/
def leftJoin (leftV rightV : String) (cells : Option Row → List (String × Val)) (left right : List Row) : List Row :=
  left.flatMap fun r =>
    match right.filter fun p => p rightV = r leftV with
    | [] => [r.put (cells none)]
    | ps => ps.map fun p => r.put (cells (some p))

/-- The cell of a row, missing when there is no row. -/
def cellOf (p : Option Row) (c : String) : Val := match p with | some r => r c | none => .null

/-- `_add_ancestor_relationship_variables` (343-389). -/
def daskAncestors (A : Arrange) (p : List Edge) (env : Env) (pd : ParentData) (child : Table) : Except PyErr (Table × List String) :=
  match pd.rel.parentName? env.rels with
  | none => .error .assertionError
  | some pn =>
    let new := pd.anc.map fun v => pn ++ "." ++ v
    if hasCols pd.df (pd.rel.parentV :: pd.anc) && child.cols.contains pd.rel.childV then
      if new.any fun n => child.cols.contains n then .error .other
      else .ok ({ cols := addCols child.cols new
                  rows := A.order p 1 (leftJoin pd.rel.childV pd.rel.parentV (fun x => new.zip (pd.anc.map (cellOf x))) child.rows pd.df.rows) }, new)
    else .error .keyError

/-- Steps 1 and 2 of `_calculate_features_for_entity` (206-245). -/
def daskPrep (A : Arrange) (p : List Edge) (env : Env) (byName : String → Option Feat) (e : String) (v : NodeVal) (fv : String)
    (fvals : List Val) (pd : Option ParentData) : Except PyErr (Table × List String) :=
  match env.getEnt e, findFeats byName (v.full ++ v.notFull) with
  | .ok ent, .ok fs =>
    match daskQuery A p ent (if v.need then none else some fvals) (if v.need then ent.index else fv)
        (necessaryColumns env e fs) (some env.timeLast) env.includeCutoff with
    | .error e => .error e
    | .ok df =>
      match pd with
      | none => .ok (df, [])
      | some pd =>
        if pd.anc.isEmpty then .ok (df, [pd.rel.childV])
        else match daskAncestors A p env pd df with
          | .ok (df, new) => .ok (df, new ++ [pd.rel.childV])
          | .error e => .error e
  | .error e, _ => .error e
  | _, .error e => .error e

/-- Which rows go to the recursive calls (252-259): the full entity can be used at the root only, where the values are
those given by the user. -/
def daskFiltered (p : List Edge) (v : NodeVal) (fv : String) (fvals : List Val) (df : Table) : Except PyErr Table :=
  if v.need then if p.isEmpty then filterDf fv fvals df else .error .valueError
  else .ok df

/-- `_calculate_transform_features` (434-470): there is no shortcut for an empty frame. -/
def daskTrans (env : Env) (fs : List Feat) (t : Table) : Except PyErr Table :=
  match concatCells (transCells env t) fs with
  | .ok cells => .ok (assignCols t cells)
  | .error e => .error e

/-- `_calculate_direct_features` (528-573): a merge on a column of both frames. When the base feature is the parent's index,
the column map renames that column away and the merge fails (540-557). -/
def daskDirect (A : Arrange) (p : List Edge) (k : Nat) (fs : List Feat) (child : Table) (dfs : DTrie) : Except PyErr Table :=
  match fs.head?.map Feat.path with
  | some [(fwd, rel)] =>
    match (Trie.nodeAt none [(fwd, rel)] dfs).value with
    | none => .error .typeError
    | some parent =>
      let pairs := lastPerBase (fs.flatMap (directPairs child))
      if hasCols parent (rel.parentV :: pairs.map Prod.snd) && child.cols.contains rel.childV then
        if pairs.any fun nb => nb.2 == rel.parentV then .error .keyError
        else .ok { cols := addCols child.cols (pairs.map Prod.fst)
                   rows := (A.order p k (leftJoin rel.childV rel.parentV (fun x => pairs.map fun nb => (nb.1, cellOf x nb.2))
                     child.rows parent.rows)).map (fillRow fs) }
      else .error .keyError
  | _ => .error .assertionError

/-- The `where` filter (593-598), without the test for an empty frame. -/
def daskWhere (f : Feat) (base : Table) : Except PyErr Table :=
  match f.wh with
  | [] => .ok base
  | w :: _ =>
    if base.cols.contains w.name then .ok { base with rows := base.rows.filter fun r => r w.name = .bool true }
    else .error .keyError

/-- The primitive of an aggregation feature and its Dask version, for features that go to `agg` (637-664). -/
def daskVersion? (A : Arrange) (f : Feat) : Option (List (Parts Val) → Val) :=
  match f.kind with
  | .agg _ p _ _ => A.version p
  | _ => none

/-- Does the feature go to `agg` (639, 763-773)? -/
def daskCanAgg (f : Feat) : Bool :=
  match f.kind with
  | .agg _ p _ _ => canAgg f p
  | _ => false

/-- The cells of one aggregation feature for the frame row with the given key (689-722): nothing when there are no rows. Two
features with one base column and one function name get in each other's way (655-661, see `Model/AggNames.lean`); that is not
repeated here. -/
def daskAggCells (A : Arrange) (p : List Edge) (gv : String) (base : List Row) (f : Feat) (id : Val) : List (String × Val) :=
  match daskVersion? A f with
  | none => []
  | some g =>
    let grp := base.filter fun r => r gv = id
    let col := grp.map fun r => r ((f.bases.map Feat.name).headD "")
    f.names.map fun n => (n, if grp.isEmpty then .null else g (A.split p f.name id col))

/-- `_calculate_agg_features` (575-746) on Dask frames.  The values of the groups are merged on the parent variable of the first
relationship (579, 716-717).  A primitive with several arguments or outputs or with a calculation time goes to `pd.merge`,
which takes no Dask frame (`TypeError`, 669-687).  `use_previous` in observations is not modelled (624-630). -/
def daskAgg (A : Arrange) (p : List Edge) (k : Nat) (env : Env) (fs : List Feat) (frame : Table) (dfs : DTrie) : Except PyErr Table :=
  match fs with
  | [] => .error .indexError
  | test :: _ =>
    let fl := fs.filter fun f => f.names.any fun n => !frame.cols.contains n
    if fl.isEmpty then .ok frame
    else match (Trie.nodeAt none test.path dfs).value, test.path.head? with
      | some base, some (_, rel) =>
        match daskWhere test base with
        | .error e => .error e
        | .ok base =>
          let gv := relationshipVariableId (aggPath test)
          let ti := (test.bases.head?.bind fun b => env.ent b.entity).bind Ent.timeIndex
          if ((aggPrev test).bind obsCount).isSome then .error .other
          else if !(fl.all daskCanAgg) then .error .typeError
          else if !(fl.all fun f => (daskVersion? A f).isSome) then .error .other
          else if base.cols.contains gv && fl.all (aggColsOk base) && frame.cols.contains rel.parentV then
            let rows := prevTime env ti (aggPrev test) base.rows
            .ok { cols := addCols frame.cols (fl.flatMap Feat.names)
                  rows := (A.order p k (frame.rows.map fun r =>
                    r.put (fl.flatMap fun f => daskAggCells A p gv rows f (r rel.parentV)))).map (fillRow fl) }
          else .error .keyError
      | _, _ => .error .attributeError

/-- `_feature_type_handler` and the call of the handler (336-339, 411-423).  Group-by features ask whether the number of rows
is zero, which Dask does not answer (`TypeError`, 477). -/
def daskGroup (A : Arrange) (p : List Edge) (k : Nat) (env : Env) (fs : List Feat) (t : Table) (dfs : DTrie) : Except PyErr Table :=
  match fs with
  | [] => .ok t
  | f :: _ =>
    match f.kind with
    | .identity _ => calcIdentity fs t
    | .direct _ => daskDirect A p k fs t dfs
    | .agg _ _ _ _ => daskAgg A p k env fs t dfs
    | .trans _ => daskTrans env fs t
    | .groupby _ => .error .typeError
    | .slice _ => .error .other

/-- The loop over the feature groups (336-341). -/
def daskGroups (A : Arrange) (p : List Edge) (env : Env) (dfs : DTrie) : Nat → List (List Feat) → Table → Except PyErr Table
  | _, [], t => .ok t
  | k, g :: gs, t => match daskGroup A p k env g t dfs with
    | .ok t' => daskGroups A p env dfs (k + 1) gs t'
    | .error e => .error e

/-- Step 4 when the node needs the full entity (310-321). Below the root that has failed before; so no full frames below are
ever read. -/
def daskFull (A : Arrange) (p : List Edge) (env : Env) (byName : String → Option Feat) (v : NodeVal) (fv : String) (fvals : List Val)
    (df : Table) : Except PyErr Table :=
  if v.need then
    match findFeats byName v.full with
    | .error e => .error e
    | .ok fs =>
      match daskGroups A p env (.node none []) 2 (groupFeatures env.rels fs) df with
      | .error e => .error e
      | .ok df1 => filterDf fv fvals df1
  else .ok df

/-- Steps 4 and 5 (292-328), given the results for the children; there are no precalculated features, because `approximate`
is refused (`calculate_feature_matrix.py` 150-153). -/
def daskFinish (A : Arrange) (p : List Edge) (env : Env) (byName : String → Option Feat) (v : NodeVal) (fv : String)
    (fvals : List Val) (df : Table) (kids : List (Edge × DTrie)) : Except PyErr DTrie :=
  match daskFull A p env byName v fv fvals df with
  | .error e => .error e
  | .ok df2 =>
    match findFeats byName v.notFull with
    | .error e => .error e
    | .ok fs =>
      match daskGroups A p env (.node none kids) (2 + v.full.length) (groupFeatures env.rels fs) df2 with
      | .error e => .error e
      | .ok df3 => .ok (.node (some df3) kids)

mutual
/-- `_calculate_features_for_entity` (161-328) on Dask frames; `p` is the path of the node. -/
def daskNode (A : Arrange) (env : Env) (byName : String → Option Feat) :
    FTrie → List Edge → String → String → List Val → Option ParentData → Except PyErr DTrie
  | .node v cs, p, e, fv, fvals, pd =>
    match daskPrep A p env byName e v fv fvals pd with
    | .error e => .error e
    | .ok (df, newAnc) =>
      match daskFiltered p v fv fvals df with
      | .error e => .error e
      | .ok filtered =>
        match daskKids A env byName cs p df filtered newAnc with
        | .error e => .error e
        | .ok kids => daskFinish A p env byName v fv fvals df kids
/-- The loop over the children (261-290). -/
def daskKids (A : Arrange) (env : Env) (byName : String → Option Feat) :
    List (Edge × FTrie) → List Edge → Table → Table → List String → Except PyErr (List (Edge × DTrie))
  | [], _, _, _, _ => .ok []
  | (edge, sub) :: rest, p, df, filtered, newAnc =>
    match subArgs edge df filtered newAnc with
    | .error e => .error e
    | .ok (e, fv, fvals, pd) =>
      match daskNode A env byName sub (p ++ [edge]) e fv fvals pd with
      | .error e => .error e
      | .ok r =>
        match daskKids A env byName rest p df filtered newAnc with
        | .error e => .error e
        | .ok rs => .ok ((edge, r) :: rs)
end

/-- The end of `run` (121-159) for a Dask frame: the columns of the target features and the index column, for whatever rows
there are. -/
def daskCollect (idx : String) (targets : List Feat) (df : Table) : Except PyErr (List (Val × List Val)) :=
  if hasCols df (targets.flatMap Feat.names ++ [idx]) then
    .ok (df.rows.map fun r => (r idx, (targets.flatMap Feat.names).map r))
  else .error .keyError

/-- `FeatureSetCalculator.run` (68-159) on a Dask entity set.  A training window is refused (`calculate_feature_matrix.py`
154-156).  When no instance asked for is present, the query gives `entity.df.head(0)`, a pandas frame (`entityset.py`
1061-1062), and so do all queries below: the rest is the pandas code (nodes that need the full entity, which would stay Dask
frames, aside). -/
def runDask (A : Arrange) (env : Env) (targets : List Feat) (e : String) (ids : List Val) : Except PyErr (List (Val × List Val)) :=
  if env.window.isSome then .error .valueError
  else if ids.isEmpty then .error .assertionError
  else if !(buildTrie targets (Trie.new [])).value.need && ids.all (fun i => i = .null) then
    runCalc env targets (Trie.new []) (Trie.new none) e ids
  else match env.getEnt e with
    | .error e => .error e
    | .ok ent =>
      match daskNode A env (lookupFeature (featuresByName targets)) (buildTrie targets (Trie.new [])) [] e ent.index ids none with
      | .error e => .error e
      | .ok dfs =>
        match dfs.value with
        | none => .error .attributeError
        | some df => daskCollect ent.index targets df

end FT
