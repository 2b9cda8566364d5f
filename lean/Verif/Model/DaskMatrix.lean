import Verif.Model.Cfm
import Verif.Model.Dask
/-!
# `calculate_feature_matrix` on Dask entity sets

Models the Dask branches of `featuretools/computational_backends/calculate_feature_matrix.py`: the refusals (149-156), the instances
(173-195), `calculate_chunk` (331-488), the missing end of the driver (303-313 are for pandas only) and the end of
`parallel_calculate_chunks` (688). The matrix is a Dask frame: rows in no particular order, the index of the entity as a column. Dtypes,
divisions and saving progress are left out.
-/
namespace FT

/-- What Dask is free to choose during a call: for every calculation (a time and a list of ids) the arrangement of the calculator, and
the order of the rows after merge number `k` of the passed columns. -/
structure DaskChoice where
  arrange : Int → List Val → Arrange
  order : Int → List Val → Nat → List Row → List Row

/-- Do two rows have the same cells in these columns? -/
def agreeOn (on : List String) (l r : Row) : Bool := on.all fun c => l c = r c

/-- `left.merge(right, how="outer")`: on all columns that both have. -/
def outerJoin (left right : Table) : Table :=
  let on := left.cols.filter fun c => right.cols.contains c
  let new := right.cols.filter fun c => !left.cols.contains c
  { cols := left.cols ++ new
    rows := (left.rows.flatMap fun l =>
        match right.rows.filter (agreeOn on l) with
        | [] => [l.put (new.map fun c => (c, .null))]
        | ps => ps.map fun p => l.put (new.map fun c => (c, p c))) ++
      (right.rows.filter fun p => !(left.rows.any fun l => agreeOn on l p)).map fun p =>
        Row.ofList (right.cols.map fun c => (c, p c)) }

/-- `pass_through[[id_name, 'time', col]]` (`calculate_feature_matrix.py` 454-458, 470). -/
def passTable (idx : String) (t : Int) (pass : List String) (grp : List TRow) (c : String) : Table :=
  { cols := [idx, "time", c]
    rows := grp.map fun r => Row.ofList [(idx, r.id), ("time", .num t), (c, ((pass.zip r.pass).lookup c).getD .null)] }

/-- The loop over the passed columns (`calculate_feature_matrix.py` 469-471). -/
def daskPass (order : Nat → List Row → List Row) (right : String → Table) : Nat → List String → Table → Table
  | _, [], m => m
  | k, c :: cs, m =>
    let j := outerJoin m (right c)
    daskPass order right (k + 1) cs { j with rows := order k j.rows }

/-- The frame that `run` gives (`feature_set_calculator.py` 151-159). -/
def daskFrame (cols : List String) (rows : List (Val × List Val)) : Table :=
  { cols := cols, rows := rows.map fun r => Row.ofList (cols.zip (r.2 ++ [r.1])) }

/-- One piece of one cutoff time (`calculate_feature_matrix.py` 420-472). The name of the index is that of the last column. A column
`time` is set, used for the merges and dropped. Repeated column names cannot be merged. That no id is given at all (where the calculator
gives a pandas frame) is not modelled. -/
def daskPiece (D : DaskChoice) (c : Call) (idx : String) (t : Int) (grp : List TRow) : Except PyErr Table :=
  let ids := isort c.idLe (grp.map TRow.id)
  match runDask (D.arrange t ids) (c.at t c.env.window) c.targets c.entity ids with
  | .error e => .error e
  | .ok rows =>
    if ids.all fun i => i = .null then .error .other
    else
      let m := daskFrame (c.featCols ++ [idx]) rows
      if c.passCols.isEmpty then .ok m
      else if !noDup m.cols || c.passCols.contains idx then .error .valueError
      else
        let m := { cols := setAdd m.cols "time", rows := m.rows.map fun r => r.put [("time", .num t)] : Table }
        let j := daskPass (D.order t ids) (passTable idx t c.passCols grp) 0 c.passCols m
        .ok { j with cols := j.cols.filter fun n => n ≠ "time" }

/-- The feature matrix as a Dask frame. -/
structure DaskMatrix where
  cols : List String
  rows : List (List Val)
deriving DecidableEq, Repr

/-- The cells of a table, row by row. -/
def tableCells (t : Table) : List (List Val) := t.rows.map fun r => t.cols.map r

/-- `dd.concat(feature_matrix)` (`calculate_feature_matrix.py` 481-482): the pieces have the same columns. -/
def daskConcat (ts : List Table) : DaskMatrix :=
  { cols := (ts.head?.map Table.cols).getD [], rows := ts.flatMap tableCells }

/-- `calculate_chunk` for a cutoff table (`calculate_feature_matrix.py` 370-486). Without any piece `pd.concat` raises. -/
def daskExact (D : DaskChoice) (c : Call) (idx : String) (size : Option Nat) (rows : List TRow) : Except PyErr (List Table) :=
  let groups := groupByKey TRow.time rows
  if groups.isEmpty then .error .valueError
  else concatAll (fun g => match pieces size (groupByKey TRow.time g.2) with
    | .error e => .error e
    | .ok ps => concatAll (fun p => (daskPiece D c idx p.1 p.2).map fun t => [t]) ps) groups

/-- `calculate_chunk` for a single cutoff time (`calculate_feature_matrix.py` 345-368). -/
def daskSingle (D : DaskChoice) (c : Call) (idx : String) (t : Int) (ids : List Val) : Except PyErr (List Table) :=
  match runDask (D.arrange t ids) (c.at t c.env.window) c.targets c.entity ids with
  | .error e => .error e
  | .ok rows => if ids.all fun i => i = .null then .error .other else .ok [daskFrame (c.featCols ++ [idx]) rows]

/-- The end of `parallel_calculate_chunks` (`calculate_feature_matrix.py` 666-690): an error of a chunk is raised; `pd.concat` takes no
Dask frames, and no empty list. -/
def daskGather (order : Nat → List Nat) (results : List (Except PyErr (List Table))) : Except PyErr (List Table) :=
  if results.isEmpty then .error .valueError
  else match concatAll id ((order results.length).filterMap fun i => results[i]?) with
    | .error e => .error e
    | .ok _ => .error .typeError

/-- Serial and parallel execution for a cutoff table (`calculate_feature_matrix.py` 269-300, 619-690). -/
def daskExecute (D : DaskChoice) (exec : Exec) (c : Call) (idx : String) (size : Option Nat) (total : Nat) (rows : List TRow) :
    Except PyErr (List Table) :=
  match exec with
  | .serial => daskExact D c idx size rows
  | .parallel workers order =>
    match parallelSize workers size total with
    | .error e => .error e
    | .ok k =>
      match chunkGroups k (groupByKey TRow.time rows) with
      | .error e => .error e
      | .ok chunks => daskGather order (chunks.map fun ch => daskExact D c idx none ch.2)

/-- Serial and parallel execution for a single cutoff time. -/
def daskExecuteSingle (D : DaskChoice) (exec : Exec) (c : Call) (idx : String) (size : Option Nat) (t : Int) (ids : List Val) :
    Except PyErr (List Table) :=
  match exec with
  | .serial => daskSingle D c idx t ids
  | .parallel workers order =>
    match parallelSize workers size ids.length with
    | .error e => .error e
    | .ok k =>
      match chunkTuple k t ids with
      | .error e => .error e
      | .ok chunks => daskGather order (chunks.map fun ch => daskSingle D c idx ch.1 ch.2)

/-- The driver for a single time (`calculate_feature_matrix.py` 173-198, 209-300). -/
def daskCfmSingle (D : DaskChoice) (a : CfmArgs) (idx : String) (t : Int) (ids : List Val) : Except PyErr DaskMatrix :=
  match chunkSizeOf a.chunkSize ids.length with
  | .error e => .error e
  | .ok size => (daskExecuteSingle D a.exec ⟨a.env, a.features, [], a.idLe⟩ idx size t ids).map daskConcat

/-- The driver for a cutoff table (`calculate_feature_matrix.py` 160-171, 209-300). -/
def daskCfmTable (D : DaskChoice) (a : CfmArgs) (idx : String) (passCols : List String) (cut : List CutRow) : Except PyErr DaskMatrix :=
  if noDup (cut.map fun r => (r.id, r.time)) then
    match chunkSizeOf a.chunkSize cut.length with
    | .error e => .error e
    | .ok size => (daskExecute D a.exec ⟨a.env, a.features, passCols, a.idLe⟩ idx size cut.length (timed cut)).map daskConcat
  else .error .assertionError

/-- `calculate_feature_matrix` (`calculate_feature_matrix.py` 138-328) on a Dask entity set. `cutoff_time_in_index` is not looked at. -/
def daskFeatureMatrix (D : DaskChoice) (a : CfmArgs) : Except PyErr DaskMatrix :=
  match a.features with
  | [] => .error .assertionError
  | f :: _ =>
    if a.approximate.isSome then .error .valueError
    else if a.env.window.isSome then .error .valueError
    else match a.env.getEnt f.entity with
      | .error e => .error e
      | .ok ent =>
        match a.cutoff with
        | .table passCols cut => daskCfmTable D a ent.index passCols cut
        | .single t => go ent.index t
        | .missing => go ent.index a.now
where
  /-- A single time, given or the current one. -/
  go (idx : String) (t : Int) : Except PyErr DaskMatrix :=
    match a.instanceIds with
    | some ids => daskCfmSingle D a idx t ids
    | none => match defaultIds a t with
      | .error e => .error e
      | .ok ids => daskCfmSingle D a idx t ids

end FT
