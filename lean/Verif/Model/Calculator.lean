import Verif.Model.FeatureSet
import Verif.Model.Query
/-!
# The feature set calculator

Models `featuretools/computational_backends/feature_set_calculator.py` for pandas entity sets: one cutoff time, a list of
instances of the target entity, a plan (feature trie) and possibly precalculated features.  Dask and Koalas branches,
dtypes and categories are not modelled; progress callbacks are in `Model/Progress.lean`.
-/
namespace FT

/-- What the calculator reads: the entity set (relationships, entities, and for each entity the columns whose variable
type is Index, Id or TimeIndex), the cutoff time, the training window, whether data at the cutoff is included, and the
subtraction `time - Timedelta(times)`. -/
structure Env where
  rels : List Relationship
  ent : String → Option Ent
  keyCols : String → List String
  timeLast : Int
  window : Option Window
  includeCutoff : Bool
  minus : Int → Dict Int → Int

/-- `entityset[entity_id]` -/
def Env.getEnt (env : Env) (e : String) : Except PyErr Ent :=
  match env.ent e with
  | some x => .ok x
  | none => .error .keyError

/-- Give a row new cells; for a repeated name the last one counts (a Python dictionary). -/
def Row.put (r : Row) (cells : List (String × Val)) : Row :=
  fun c => match cells.reverse.lookup c with
    | some v => v
    | none => r c

/-- Add columns to a list of columns. -/
def addCols (cols new : List String) : List String := new.foldl setAdd cols

/-- `fillna` of one cell. -/
def fillDflt (d v : Val) : Val := if v = .null then d else v

/-- `[self.features_by_name[name] for name in names]` (`feature_set.py` 148). -/
def findFeats (byName : String → Option Feat) : List String → Except PyErr (List Feat)
  | [] => .ok []
  | n :: ns => match byName n, findFeats byName ns with
    | some f, .ok fs => .ok (f :: fs)
    | none, _ => .error .keyError
    | _, .error e => .error e

/-- `df[columns]` for a list of columns: the columns must exist. -/
def hasCols (t : Table) (cs : List String) : Bool := cs.all fun c => t.cols.contains c

/-- `frame.assign(**new_cols)` in `update_feature_columns` (`feature_set_calculator.py` 805-819): whole columns, by position. -/
def assignCols (t : Table) (cells : List (String × List Val)) : Table :=
  { cols := addCols t.cols (cells.map Prod.fst)
    rows := t.rows.mapIdx fun i r => r.put (cells.map fun nv => (nv.1, nv.2.getD i .null)) }

/-- `_calculate_identity_features` (425-432). -/
def calcIdentity (fs : List Feat) (t : Table) : Except PyErr Table :=
  if fs.all fun f => t.cols.contains f.name then .ok t else .error .assertionError

/-- The primitive of a transform or group-by transform feature. -/
def transPrim? (f : Feat) : Option TransPrim :=
  match f.kind with
  | .trans p => some p
  | .groupby p => some p
  | _ => none

/-- The values of one transform feature (448-465), with the length checks of `update_feature_columns` (810) and of `assign`. -/
def transCells (env : Env) (t : Table) (f : Feat) : Except PyErr (List (String × List Val)) :=
  match transPrim? f with
  | none => .error .other
  | some p =>
    if hasCols t (f.bases.map Feat.name) then
      let outs := p.fn env.timeLast (f.bases.map fun b => t.rows.map fun r => r b.name)
      if outs.length = f.names.length then
        if outs.all fun c => c.length == t.rows.length then .ok (f.names.zip outs) else .error .valueError
      else .error .assertionError
    else .error .keyError

/-- All features of a group, one after the other. -/
def concatCells {α : Type} (g : Feat → Except PyErr (List α)) : List Feat → Except PyErr (List α)
  | [] => .ok []
  | f :: fs => match g f, concatCells g fs with
    | .ok a, .ok b => .ok (a ++ b)
    | .error e, _ => .error e
    | _, .error e => .error e

/-- `_calculate_transform_features` (434-470). -/
def calcTrans (env : Env) (fs : List Feat) (t : Table) : Except PyErr Table :=
  if t.rows.isEmpty then .ok { cols := addCols t.cols (fs.flatMap Feat.names), rows := [] }
  else match concatCells (transCells env t) fs with
    | .ok cells => .ok (assignCols t cells)
    | .error e => .error e

/-- `set_default_column` for every feature of a group (800-802, 473-474). -/
def setDefaults (fs : List Feat) (t : Table) : Table :=
  { cols := addCols t.cols (fs.flatMap Feat.names)
    rows := t.rows.map fun r => r.put (fs.flatMap fun f => f.names.map fun n => (n, f.dflt)) }

/-- The output series of one group-by feature for one group value (495-517), each entry labelled with the index of its row. -/
def groupSeries (env : Env) (idx gname : String) (t : Table) (f : Feat) (p : TransPrim) (g : Val) :
    List (List (Val × Val)) :=
  let members := t.rows.filter fun r => r gname = g
  let outs := p.fn env.timeLast (f.bases.dropLast.map fun b => members.map fun r => r b.name)
  outs.map fun col => (members.map fun r => r idx).zip col

/-- The non-null group values in order of first appearance (484, 493-494). -/
def groupValues (gname : String) (t : Table) : List Val := dropna (dedup (t.rows.map fun r => r gname))

/-- The values have one entry per row of the group (index assignment, 512-516) and there is a column per output (520). -/
def groupShapes (env : Env) (gname : String) (t : Table) (f : Feat) (p : TransPrim) (g : Val) : Bool :=
  let members := t.rows.filter fun r => r gname = g
  let outs := p.fn env.timeLast (f.bases.dropLast.map fun b => members.map fun r => r b.name)
  outs.length == f.names.length && outs.all fun col => col.length == members.length

/-- For each output name of a group-by feature the series of all groups, concatenated (519-522). -/
def groupCells (env : Env) (idx gname : String) (t : Table) (f : Feat) : Except PyErr (List (String × List (Val × Val))) :=
  match transPrim? f with
  | none => .error .other
  | some p =>
    if hasCols t (gname :: f.bases.dropLast.map Feat.name) then
      if (groupValues gname t).all (groupShapes env gname t f p) then
        .ok (f.names.mapIdx fun k n =>
          (n, (groupValues gname t).flatMap fun g => (groupSeries env idx gname t f p g).getD k []))
      else .error .valueError
    else .error .keyError

/-- `frame[name].update(series)` (522): aligned on the index labels, missing new values leave the old ones. -/
def updateCells (idx : String) (series : List (String × List (Val × Val))) (r : Row) : Row :=
  fun c => match series.reverse.lookup c with
    | some s => fillDflt (r c) ((s.lookup (r idx)).getD .null)
    | none => r c

/-- `_calculate_groupby_features` (472-526). -/
def calcGroupby (env : Env) (idx : String) (fs : List Feat) (t : Table) : Except PyErr Table :=
  let t1 := setDefaults fs t
  if t1.rows.isEmpty then .ok t1
  else match fs.head?.bind fun f => f.bases.getLast? with
    | none => .error .other
    | some grp =>
      match concatCells (groupCells env idx grp.name t1) fs with
      | .ok series => .ok { cols := t1.cols, rows := t1.rows.map (updateCells idx series) }
      | .error e => .error e

/-- The pairs (feature name, base column name) a direct feature copies (549-553). -/
def directPairs (child : Table) (f : Feat) : List (String × String) :=
  match f.bases with
  | b :: _ => (f.names.zip b.names).filter fun nb => !child.cols.contains nb.1
  | [] => []

/-- `col_map` is a dictionary from base column names (543-553): two features with the same base column overwrite each
other, and the first one's column is then missing. Only the last pair of a base column is kept. -/
def lastPerBase : List (String × String) → List (String × String)
  | [] => []
  | nb :: l => if l.any (fun x => x.2 == nb.2) then lastPerBase l else nb :: lastPerBase l

/-- The cells of the parent row merged into a child row (556-569), missing without a parent row. -/
def mergedCells (rel : Relationship) (parent : Table) (pairs : List (String × String)) (r : Row) : List (String × Val) :=
  match parent.rows.find? fun p => p rel.parentV = r rel.childV with
  | some p => pairs.map fun nb => (nb.1, p nb.2)
  | none => pairs.map fun nb => (nb.1, .null)

/-- `fillna(fillna_dict)` for the names of a group of features (543-546, 573 and 730-736). -/
def fillRow (fs : List Feat) (r : Row) : Row :=
  fun c => match (fs.flatMap fun f => f.names.map fun n => (n, f.dflt)).reverse.lookup c with
    | some d => fillDflt d (r c)
    | none => r c

/-- `_calculate_direct_features` (528-573). A left merge on the parent's unique index keeps every child row once. -/
def calcDirect (fs : List Feat) (child : Table) (dfs : Trie Edge (Option Table)) : Except PyErr Table :=
  match fs.head?.map Feat.path with
  | some [(fwd, rel)] =>
    match (Trie.nodeAt none [(fwd, rel)] dfs).value with
    | none => .error .typeError
    | some parent =>
      let pairs := lastPerBase (fs.flatMap (directPairs child))
      if hasCols parent (rel.parentV :: pairs.map Prod.snd) && child.cols.contains rel.childV then
        .ok { cols := addCols child.cols (pairs.map Prod.fst)
              rows := child.rows.map fun r => fillRow fs (r.put (mergedCells rel parent pairs r)) }
      else .error .keyError
  | _ => .error .assertionError

/-- `df.iloc[-n:]` (627-628). -/
def pyTail {α : Type} (n : Int) (l : List α) : List α :=
  if 0 < n then l.drop (l.length - n.toNat) else l.drop (-n).toNat

/-- `_can_agg` (763-773). -/
def canAgg (f : Feat) (p : AggPrim) : Bool :=
  let bases := match f.wh with
    | w :: _ => f.bases.filter fun (b : Feat) => b.name ≠ w.name
    | [] => f.bases
  !p.usesCalcTime && bases.length == 1 && f.names.length == 1

/-- The argument columns of an aggregation: the first base feature in the `agg` branch (640), all of them in the `apply`
branch (782-783). -/
def aggArgs (f : Feat) (p : AggPrim) : List String :=
  if canAgg f p then (f.bases.take 1).map Feat.name else f.bases.map Feat.name

/-- `get_relationship_variable_id` (`utils/gen_utils.py` 24-31): the column of the child that links it to the top of the path. -/
def relationshipVariableId : List Relationship → String
  | [] => ""
  | r :: rs => rs.foldl (fun name s => s.parentE ++ "." ++ name) r.childV

/-- Does `use_previous` count observations (`Timedelta.has_no_observations`, `get_value('o')`)? -/
def obsCount (prev : Dict Int) : Option Int := Dict.get? prev "o"

/-- Restrict the child rows to `use_previous` in time (616-623). -/
def prevTime (env : Env) (ti : Option String) (prev : Option (Dict Int)) (rows : List Row) : List Row :=
  match prev with
  | some times =>
    match obsCount times, ti with
    | none, some c => rows.filter fun r => (r c).ge (env.minus env.timeLast times)
    | _, _ => rows
  | none => rows

/-- Restrict one group to `use_previous` in observations (624-630). -/
def prevObs (prev : Option (Dict Int)) (rows : List Row) : List Row :=
  match prev.bind obsCount with
  | some n => pyTail n rows
  | none => rows

/-- The rows an aggregation sees for the frame row with the given index value. -/
def aggGroup (gv : String) (prev : Option (Dict Int)) (base : List Row) (id : Val) : List Row :=
  prevObs prev (base.filter fun r => r gv = id)

/-- The cells of one aggregation feature for one frame row (637-724): nothing when there are no rows (left merge). -/
def aggCells (env : Env) (gv : String) (prev : Option (Dict Int)) (base : List Row) (f : Feat) (id : Val) : List (String × Val) :=
  match f.kind with
  | .agg _ p _ _ =>
    let grp := aggGroup gv prev base id
    if grp.isEmpty then f.names.map fun n => (n, .null)
    else
      let outs := p.fn env.timeLast ((aggArgs f p).map fun a => grp.map fun r => r a)
      f.names.mapIdx fun k n => (n, outs.getD k .null)
  | _ => []

/-- The base columns needed by a group of aggregations exist (640, 783). -/
def aggColsOk (base : Table) (f : Feat) : Bool :=
  match f.kind with
  | .agg _ p _ _ => hasCols base (aggArgs f p)
  | _ => false

/-- The number of values returned by each aggregation matches (790-794, 810); checked for the groups that occur. -/
def aggShapeOk (env : Env) (gv : String) (prev : Option (Dict Int)) (base : List Row) (f : Feat) (id : Val) : Bool :=
  match f.kind with
  | .agg _ p _ _ =>
    let grp := aggGroup gv prev base id
    grp.isEmpty || (p.fn env.timeLast ((aggArgs f p).map fun a => grp.map fun r => r a)).length == f.names.length
  | _ => false

/-- The `where` filter (594-598). A condition that is not a boolean raises in pandas and counts as false here. -/
def whereFilter (f : Feat) (base : Table) : Except PyErr Table :=
  match f.wh with
  | [] => .ok base
  | w :: _ =>
    if base.rows.isEmpty then .ok base
    else if base.cols.contains w.name then .ok { base with rows := base.rows.filter fun r => r w.name = .bool true }
    else .error .keyError

/-- `use_previous` of an aggregation feature. -/
def aggPrev (f : Feat) : Option (Dict Int) := match f.kind with | .agg _ _ prev _ => prev | _ => none
/-- The relationships of an aggregation feature's path. -/
def aggPath (f : Feat) : List Relationship := match f.kind with | .agg p _ _ _ => p | _ => []

/-- The branch of `_calculate_agg_features` with child rows (608-736); pandas' `agg` and `apply` on a group are both "call
the function on the group's columns". -/
def aggRows (env : Env) (idx : String) (ti : Option String) (test : Feat) (fs : List Feat) (frame base : Table) : Except PyErr Table :=
  let gv := relationshipVariableId (aggPath test)
  if base.cols.contains gv && fs.all (aggColsOk base) then
    let rows := prevTime env ti (aggPrev test) base.rows
    if frame.rows.all fun r => fs.all fun f => aggShapeOk env gv (aggPrev test) rows f (r idx) then
      .ok { cols := addCols frame.cols (fs.flatMap Feat.names)
            rows := frame.rows.map fun r =>
              fillRow fs (r.put (fs.flatMap fun f => aggCells env gv (aggPrev test) rows f (r idx))) }
    else .error .assertionError
  else .error .keyError

/-- `_calculate_agg_features` (575-746), without the conversion of boolean columns to floats (738-744). -/
def calcAgg (env : Env) (idx : String) (fs : List Feat) (frame : Table) (dfs : Trie Edge (Option Table)) : Except PyErr Table :=
  match fs with
  | [] => .error .indexError
  | test :: _ =>
    let fl := fs.filter fun f => f.names.any fun n => !frame.cols.contains n
    if fl.isEmpty then .ok frame
    else match (Trie.nodeAt none test.path dfs).value with
      | none => .error .attributeError
      | some base =>
        match whereFilter test base with
        | .error e => .error e
        | .ok base =>
          if base.rows.isEmpty then
            .ok { cols := addCols frame.cols (fl.flatMap Feat.names)
                  rows := frame.rows.map fun r =>
                    fillRow fl (r.put (fl.flatMap fun f => f.names.map fun n => (n, .null))) }
          else
            let ti := (test.bases.head?.bind fun b => env.ent b.entity).bind Ent.timeIndex
            aggRows env idx ti test fl frame base

/-- `_feature_type_handler` and the call of the handler (336-339, 411-423). -/
def calcGroup (env : Env) (idx : String) (fs : List Feat) (t : Table) (dfs : Trie Edge (Option Table)) : Except PyErr Table :=
  match fs with
  | [] => .ok t
  | f :: _ =>
    match f.kind with
    | .identity _ => calcIdentity fs t
    | .direct _ => calcDirect fs t dfs
    | .agg _ _ _ _ => calcAgg env idx fs t dfs
    | .trans _ => calcTrans env fs t
    | .groupby _ => calcGroupby env idx fs t
    | .slice _ => .error .other

/-- The loop over the feature groups (336-341). -/
def calcGroups (env : Env) (idx : String) (dfs : Trie Edge (Option Table)) : List (List Feat) → Table → Except PyErr Table
  | [], t => .ok t
  | g :: gs, t => match calcGroup env idx g t dfs with
    | .ok t' => calcGroups env idx dfs gs t'
    | .error e => .error e

/-- `_calculate_features` (330-341). -/
def calcFeatures (env : Env) (idx : String) (fs : List Feat) (t : Table) (dfs : Trie Edge (Option Table)) : Except PyErr Table :=
  calcGroups env idx dfs (groupFeatures env.rels fs) t

/-- The variable of an identity feature. -/
def identityVar? (f : Feat) : Option String := match f.kind with | .identity v => some v | _ => none

/-- `_necessary_columns` (748-760). -/
def necessaryColumns (env : Env) (e : String) (fs : List Feat) : List String :=
  dedup (env.keyCols e ++ fs.filterMap identityVar?)

/-- `parent_data` (194-200): the relationship to the parent, the link columns of the parent, the parent's frame. -/
structure ParentData where
  rel : Relationship
  anc : List String
  df : Table

/-- The link columns copied from the parent's row (379-382). -/
def ancestorCells (rel : Relationship) (anc new : List String) (parent : Table) (r : Row) : List (String × Val) :=
  match parent.rows.find? fun p => p rel.parentV = r rel.childV with
  | some p => new.zip (anc.map fun a => p a)
  | none => new.zip (anc.map fun _ => .null)

/-- `_add_ancestor_relationship_variables` (343-389). When a new name is already a column of the child, pandas renames
both; that case is not modelled (`PyErr.other`). -/
def addAncestors (env : Env) (pd : ParentData) (child : Table) : Except PyErr (Table × List String) :=
  match pd.rel.parentName? env.rels with
  | none => .error .assertionError
  | some pn =>
    let new := pd.anc.map fun v => pn ++ "." ++ v
    if hasCols pd.df (pd.rel.parentV :: pd.anc) && child.cols.contains pd.rel.childV then
      if new.any fun n => child.cols.contains n then .error .other
      else .ok ({ cols := addCols child.cols new
                  rows := child.rows.map fun r => r.put (ancestorCells pd.rel pd.anc new pd.df r) }, new)
    else .error .keyError

/-- Steps 1 and 2 of `_calculate_features_for_entity` (206-245): the entity's rows and the link columns. -/
def prepNode (env : Env) (byName : String → Option Feat) (e : String) (v : NodeVal) (fv : String) (fvals : List Val)
    (pd : Option ParentData) : Except PyErr (Table × List String) :=
  match env.getEnt e, findFeats byName (v.full ++ v.notFull) with
  | .ok ent, .ok fs =>
    match queryByValues ent (if v.need then none else some fvals) (if v.need then none else some fv)
        (some (necessaryColumns env e fs)) (some env.timeLast) env.window env.includeCutoff with
    | .error e => .error e
    | .ok df =>
      match pd with
      | none => .ok (df, [])
      | some pd =>
        if pd.anc.isEmpty then .ok (df, [pd.rel.childV])
        else match addAncestors env pd df with
          | .ok (df, new) => .ok (df, new ++ [pd.rel.childV])
          | .error e => .error e
  | .error e, _ => .error e
  | _, .error e => .error e

/-- `df[df[filter_variable].isin(filter_values)]` (257, 321). -/
def filterDf (fv : String) (fvals : List Val) (t : Table) : Except PyErr Table :=
  if t.cols.contains fv then .ok { t with rows := t.rows.filter fun r => fvals.contains (r fv) } else .error .keyError

/-- Precalculated features of a node: index labels with rows. -/
structure PreTable where
  cols : List String
  rows : List (Val × Row)

/-- The left merge with precalculated features on the index (297-305). Columns present in both get a suffix and are never
read again; they are left out here. -/
def mergePre (idx : String) (t : Table) : Option PreTable → Table
  | none => t
  | some pre =>
    let new := pre.cols.filter fun c => !t.cols.contains c
    { cols := addCols t.cols new
      rows := t.rows.map fun r =>
        match pre.rows.lookup (r idx) with
        | some p => r.put (new.map fun c => (c, p c))
        | none => r.put (new.map fun c => (c, .null)) }

abbrev DTrie := Trie Edge (Option Table)
abbrev PTrie := Trie Edge (Option PreTable)

/-- The arguments of a recursive call (261-275): entity, filter variable, filter values, parent data. -/
def subArgs (edge : Edge) (df filtered : Table) (newAnc : List String) :
    Except PyErr (String × String × List Val × Option ParentData) :=
  match edge with
  | (true, rel) =>
    if filtered.cols.contains rel.childV then
      .ok (rel.parentE, rel.parentV, filtered.rows.map fun r => r rel.childV, none)
    else .error .keyError
  | (false, rel) =>
    if filtered.cols.contains rel.parentV then
      .ok (rel.childE, rel.childV, filtered.rows.map fun r => r rel.parentV, some ⟨rel, newAnc, df⟩)
    else .error .keyError

/-- Step 4 when the node needs the full entity (310-321). -/
def fullStep (env : Env) (byName : String → Option Feat) (idx : String) (v : NodeVal) (fv : String) (fvals : List Val)
    (df : Table) (fulls : DTrie) : Except PyErr (Table × Option Table) :=
  if v.need then
    match findFeats byName v.full with
    | .error e => .error e
    | .ok fs =>
      match calcFeatures env idx fs df fulls with
      | .error e => .error e
      | .ok df1 =>
        match filterDf fv fvals df1 with
        | .ok df2 => .ok (df2, some df1)
        | .error e => .error e
  else .ok (df, none)

/-- Steps 4 and 5 (292-328), given the results for the children. -/
def finishNode (env : Env) (byName : String → Option Feat) (e : String) (v : NodeVal) (fv : String) (fvals : List Val)
    (df : Table) (pre : Option PreTable) (kids : List (Edge × DTrie × DTrie)) : Except PyErr (DTrie × DTrie) :=
  match env.getEnt e with
  | .error e => .error e
  | .ok ent =>
    let dfKids := kids.map fun k => (k.1, k.2.1)
    let fullKids := kids.map fun k => (k.1, k.2.2)
    match fullStep env byName ent.index v fv fvals (mergePre ent.index df pre) (.node none fullKids) with
    | .error e => .error e
    | .ok (df2, fullDf) =>
      match findFeats byName v.notFull with
      | .error e => .error e
      | .ok fs =>
        match calcFeatures env ent.index fs df2 (.node none dfKids) with
        | .error e => .error e
        | .ok df3 => .ok (.node (some df3) dfKids, .node fullDf fullKids)

/-- Which rows go to the recursive calls (252-259). -/
def filteredDf (v : NodeVal) (fv : String) (fvals : List Val) (df : Table) : Except PyErr Table :=
  if v.need then filterDf fv fvals df else .ok df

mutual
/-- `_calculate_features_for_entity` (161-328): the frames stored for this node and below, and the full-entity frames. -/
def calcNode (env : Env) (byName : String → Option Feat) :
    FTrie → PTrie → String → String → List Val → Option ParentData → Except PyErr (DTrie × DTrie)
  | .node v cs, pre, e, fv, fvals, pd =>
    match prepNode env byName e v fv fvals pd with
    | .error e => .error e
    | .ok (df, newAnc) =>
      match filteredDf v fv fvals df with
      | .error e => .error e
      | .ok filtered =>
        match calcKids env byName cs pre df filtered newAnc with
        | .error e => .error e
        | .ok kids => finishNode env byName e v fv fvals df pre.value kids
/-- The loop over the children (261-290). -/
def calcKids (env : Env) (byName : String → Option Feat) :
    List (Edge × FTrie) → PTrie → Table → Table → List String → Except PyErr (List (Edge × DTrie × DTrie))
  | [], _, _, _, _ => .ok []
  | (edge, sub) :: rest, pre, df, filtered, newAnc =>
    match subArgs edge df filtered newAnc with
    | .error e => .error e
    | .ok (e, fv, fvals, pd) =>
      match calcNode env byName sub (Trie.nodeAt none [edge] pre) e fv fvals pd with
      | .error e => .error e
      | .ok r =>
        match calcKids env byName rest pre df filtered newAnc with
        | .error e => .error e
        | .ok rs => .ok ((edge, r) :: rs)
end

/-- The default row (391-399). -/
def defaultRow (targets : List Feat) : List Val := targets.flatMap fun f => f.names.map fun _ => f.dflt

/-- The end of `run` (121-159): rows of the result with their index labels.  With no data, every requested id gets the
default row; otherwise unknown ids get it and the rows are put in the order of the distinct requested ids. Re-indexing a
frame whose labels repeat (an unknown id asked for twice) is a `ValueError`. -/
def collectRows (idx : String) (targets : List Feat) (ids : List Val) (df : Table) : Except PyErr (List (Val × List Val)) :=
  if df.rows.isEmpty then .ok (ids.map fun i => (i, defaultRow targets))
  else
    let missing := ids.filter fun i => !(df.rows.any fun r => r idx = i)
    if dedup missing ≠ missing then .error .valueError
    else if hasCols df (targets.flatMap Feat.names) then
      .ok ((dedup ids).map fun i => match df.rows.find? fun r => r idx = i with
        | some r => (i, (targets.flatMap Feat.names).map r)
        | none => (i, defaultRow targets))
    else .error .keyError

/-- `FeatureSetCalculator.run` (68-159) for the plan of the given target features on entity `e`. -/
def runCalc (env : Env) (targets : List Feat) (approx : ATrie) (pre : PTrie) (e : String) (ids : List Val) :
    Except PyErr (List (Val × List Val)) :=
  if ids.isEmpty then .error .assertionError
  else match env.getEnt e with
    | .error e => .error e
    | .ok ent =>
      match calcNode env (lookupFeature (featuresByName targets)) (buildTrie targets approx) pre e ent.index ids none with
      | .error e => .error e
      | .ok (dfs, _) =>
        match dfs.value with
        | none => .error .attributeError
        | some df => collectRows ent.index targets ids df

end FT
