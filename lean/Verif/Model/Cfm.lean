import Verif.Model.Calculator
import Verif.Model.Chunk
import Verif.Model.Util
/-!
# `calculate_feature_matrix`

Models `featuretools/computational_backends/calculate_feature_matrix.py` 138-328 (the driver), 331-488 (`calculate_chunk`),
491-578 (`approximate_features`), 587-690 (`parallel_calculate_chunks`) and 693-721 for pandas entity sets.  Progress reports
(modelled in `Model/Progress.lean`), dtypes, saving progress (modelled in `Model/Disk.lean`) and the start-up of the cluster are left out.  The current
time (`datetime.now()`, or infinity for numeric times) is a parameter.
-/
namespace FT

/-- A row of the cutoff table: instance, time (`none` is NaT or NaN), and the columns that are passed through. -/
structure CutRow where
  id : Val
  time : Option Int
  pass : List Val
deriving DecidableEq, Repr

/-- A row of the cutoff table that has a time. -/
structure TRow where
  id : Val
  time : Int
  pass : List Val
deriving DecidableEq, Repr

/-- A row of a feature matrix before the final re-indexing: its index labels and its cells. -/
structure MRow where
  id : Val
  time : Int
  vals : List Val
deriving DecidableEq, Repr

/-- The feature matrix: its columns and its rows with their labels; the time label is there when `cutoff_time_in_index`. -/
structure Matrix where
  cols : List String
  rows : List (Val × Option Int × List Val)
deriving DecidableEq, Repr

/-- The arguments that stay the same during a call: the entity set, the training window and `include_cutoff_time` (in
`env`, whose cutoff time is replaced), the features, the names of the passed columns, the order pandas sorts ids by. -/
structure Call where
  env : Env
  targets : List Feat
  passCols : List String
  idLe : Val → Val → Bool

/-- `entityset[features[0].entity.id]` (`calculate_feature_matrix.py` 158). -/
def Call.entity (c : Call) : String := (c.targets.head?.map Feat.entity).getD ""

/-- The environment of one calculator (`calculate_feature_matrix.py` 358-361, 398-402). -/
def Call.at (c : Call) (t : Int) (w : Option Window) : Env := { c.env with timeLast := t, window := w }

/-- Run over a list, concatenating the results; the first error ends the run. -/
def concatAll {α β : Type} (g : α → Except PyErr (List β)) : List α → Except PyErr (List β)
  | [] => .ok []
  | a :: l => match g a with
    | .error e => .error e
    | .ok x => match concatAll g l with
      | .error e => .error e
      | .ok y => .ok (x ++ y)

/-- `frame[col] = series` for one row (`calculate_feature_matrix.py` 465-466): a column of that name is replaced. -/
def setCell (cols : List String) (vals : List Val) (c : String) (v : Val) : List Val :=
  if c ∈ cols then (cols.zip vals).map fun x => if x.1 = c then v else x.2 else vals ++ [v]

/-- The columns after adding the passed ones. -/
def withPass (cols pass : List String) : List String := pass.foldl setAdd cols

/-- The loop over the passed columns for one row (`calculate_feature_matrix.py` 465-466). -/
def addPass : List String → List Val → List (String × Val) → List Val
  | _, vals, [] => vals
  | cols, vals, (c, v) :: ps => addPass (setAdd cols c) (setCell cols vals c v) ps

/-- `pass_through[col]` aligned to the row of an instance (`calculate_feature_matrix.py` 455-466); all rows of the group have
the same time. -/
def passOf (pass : List String) (grp : List TRow) (id : Val) : List (String × Val) :=
  match grp.find? fun r => r.id = id with
  | some r => pass.zip r.pass
  | none => pass.map fun c => (c, .null)

/-- The columns of the requested features. -/
def Call.featCols (c : Call) : List String := c.targets.flatMap Feat.names

/-- One piece of one cutoff time without approximation (`calculate_feature_matrix.py` 420-466). The new time index has one
entry per requested id (461-462). -/
def groupMatrix (c : Call) (t : Int) (grp : List TRow) : Except PyErr (List MRow) :=
  let ids := isort c.idLe (grp.map TRow.id)
  match runCalc (c.at t c.env.window) c.targets (Trie.new []) (Trie.new none) c.entity ids with
  | .error e => .error e
  | .ok rows =>
    if rows.length = ids.length then
      .ok (rows.map fun r => ⟨r.1, t, addPass c.featCols r.2 (passOf c.passCols grp r.1)⟩)
    else .error .valueError

/-- `groupby('time')` followed by the cut into chunks, if a chunk size is given (`calculate_feature_matrix.py` 415-418). -/
def pieces (size : Option Nat) (groups : List (Int × List TRow)) : Except PyErr (List (Int × List TRow)) :=
  match size with
  | none => .ok groups
  | some k => chunkGroups k groups

/-- The second field `time` of the cutoff table: rows without a time are in no group (`groupby` drops missing keys). -/
def timed (cut : List CutRow) : List TRow := cut.filterMap fun r => r.time.map fun t => ⟨r.id, t, r.pass⟩

/-! ### Approximation -/

/-- The argument `approximate`: a number or a time span. -/
inductive Approx where
  | int (n : Int)
  | delta (td : Timedelta)

/-- Put the binned times beside the rows. -/
def refill : List Int → List TRow → List (Int × TRow)
  | b :: bs, r :: rs => (b, r) :: refill bs rs
  | _, _ => []

/-- `bin_cutoff_times` (`computational_backends/utils.py` 23-30). For an integer bin size `x / n * n` with true division is
`x` again; a bin size of zero is not modelled (`other`). When `datetime_round` returns `None` all times are missing and no row
is in a group. -/
def binRows (a : Approx) (rows : List TRow) : Except PyErr (List (Int × TRow)) :=
  match a with
  | .int n => if n = 0 then .error .other else .ok (rows.map fun r => (r.time, r))
  | .delta td =>
    match datetimeRound (rows.map TRow.time) td with
    | .error e => .error e
    | .ok none => .ok []
    | .ok (some bs) => .ok (refill bs rows)

/-- One step of the loop of `_add_approx_entity_index_var` (`calculate_feature_matrix.py` 704-719): an inner merge of the ids
with the child's data, which is not restricted to any cutoff. When the joined column is also the linking column both copies
are renamed and the merge is a `KeyError`. -/
def joinUp (env : Env) (last : String) (rel : Relationship) (ids : List Val) : Except PyErr (List Val) :=
  match env.getEnt rel.childE with
  | .error e => .error e
  | .ok ent =>
    if last = rel.childV then .error .keyError
    else if hasCols ent.df [last, rel.childV] then
      .ok (ids.flatMap fun i => (ent.df.rows.filter fun r => r last = i).map fun r => r rel.childV)
    else .error .keyError

/-- `_add_approx_entity_index_var` (`calculate_feature_matrix.py` 693-721). -/
def approxIds (env : Env) : String → List Edge → List Val → Except PyErr (List Val)
  | _, [], ids => .ok ids
  | last, (_, rel) :: path, ids =>
    match joinUp env last rel ids with
    | .error e => .error e
    | .ok ids => approxIds env rel.parentV path ids

/-- A feature matrix for the cutoff table without approximation, computed in this process (`calculate_feature_matrix.py`
370-486). -/
def calculateExact (c : Call) (size : Option Nat) (rows : List TRow) : Except PyErr (List MRow) :=
  let groups := groupByKey TRow.time rows
  if groups.isEmpty then .error .valueError
  else concatAll (fun g => match pieces size (groupByKey TRow.time g.2) with
    | .error e => .error e
    | .ok ps => concatAll (fun p => groupMatrix c p.1 p.2) ps) groups

/-- `feature_matrix.reindex(MultiIndex.from_frame(cutoff_time))` (`calculate_feature_matrix.py` 304-307): a label that is not
in the matrix gets missing values; repeated labels cannot be re-indexed. -/
def reindexTable (cols : List String) (cut : List CutRow) (rows : List MRow) : Except PyErr Matrix :=
  if noDup (rows.map fun r => (r.id, r.time)) then
    .ok { cols := cols, rows := cut.map fun k => (k.id, k.time,
      ((rows.find? fun r => r.id = k.id ∧ some r.time = k.time).map MRow.vals).getD (cols.map fun _ => .null)) }
  else .error .valueError

/-- The call for the approximated features at the end of a path (`calculate_feature_matrix.py` 567-574): the values by
instance.  The table of ids at the one binned time has no repetitions. -/
def approxTable (c : Call) (feats : List Feat) (b : Int) (ids : List Val) : Except PyErr PreTable :=
  let sub : Call := { c with targets := feats, passCols := [] }
  let cut := ids.map fun i => (⟨i, some b, []⟩ : CutRow)
  match calculateExact sub (some ids.length) (timed cut) with
  | .error e => .error e
  | .ok rows =>
    match reindexTable sub.featCols cut rows with
    | .error e => .error e
    | .ok m => .ok { cols := m.cols, rows := m.rows.map fun r => (r.1, Row.ofList (m.cols.zip r.2.2)) }

/-- The body of the loop of `approximate_features` for one path (`calculate_feature_matrix.py` 536-576). The order of the
names and of the ids does not matter for the table. -/
def approxAt (c : Call) (index : String) (b : Int) (grp : List TRow) (path : List Edge) (names : List String) :
    Except PyErr PreTable :=
  match approxIds c.env index path (grp.map TRow.id) with
  | .error e => .error e
  | .ok ids =>
    match findFeats (lookupFeature (featuresByName c.targets)) names with
    | .error e => .error e
    | .ok feats =>
      let ids := dropna (dedup ids)
      if ids.isEmpty then .ok { cols := feats.map Feat.name, rows := [] } else approxTable c feats b ids

/-- The loop of `approximate_features` (`calculate_feature_matrix.py` 536-576) over the paths with names. -/
def approxLoop (c : Call) (index : String) (b : Int) (grp : List TRow) :
    List (List Edge × List String) → PTrie → Except PyErr PTrie
  | [], t => .ok t
  | (path, names) :: rest, t =>
    if names.isEmpty then approxLoop c index b grp rest t
    else match approxAt c index b grp path names with
      | .error e => .error e
      | .ok pre => approxLoop c index b grp rest (Trie.modifyAt none (fun s => s.setValue (some pre)) path t)

/-- `approximate_features` (`calculate_feature_matrix.py` 491-578) for the rows of one binned time. The time is binned again
(531), which changes nothing, as flooring twice is flooring once (`C34_bin_monotone_idempotent`). -/
def approximateFeatures (c : Call) (b : Int) (grp : List TRow) : Except PyErr PTrie :=
  match c.env.getEnt c.entity with
  | .error e => .error e
  | .ok ent => approxLoop c ent.index b grp (gatherApproximate c.targets).toList (Trie.new none)

/-- Is it an aggregation feature? -/
def Feat.isAgg (f : Feat) : Bool := match f.kind with | .agg _ _ _ _ => true | _ => false

/-- `no_unapproximated_aggs` when approximating (`calculate_feature_matrix.py` 217-235). -/
def noUnapproximatedAggs (targets : List Feat) : Bool :=
  targets.all fun f => !f.isAgg &&
    (deepDeps ((gatherApproximate targets).toList.flatMap Prod.snd) f).all fun d => !d.isAgg

/-- The columns with approximation (`calculate_feature_matrix.py` 443-448). -/
def Call.approxCols (c : Call) : List String := (c.featCols.filter fun n => n ∉ c.passCols) ++ c.passCols

/-- The cells of the requested features that are not named like a passed column. -/
def keepCells (c : Call) (vals : List Val) : List Val :=
  ((c.featCols.zip vals).filter fun x => x.1 ∉ c.passCols).map Prod.snd

/-- `cutoff_time['target_time'] = cutoff_time['time']` (`calculate_feature_matrix.py` 529-530) changes the group of the caller: a
passed column of that name is overwritten by the binned time. -/
def stampTarget (pass : List String) (b : Int) (r : TRow) : TRow :=
  { r with pass := (pass.zip r.pass).map fun x => if x.1 = "target_time" then .num b else x.2 }

/-- One piece with approximation (`calculate_feature_matrix.py` 420-451): the right merge gives every row of the group the
values of its instance. A passed column `_original_time` makes the new index ambiguous (444, 449). -/
def groupMatrixApprox (c : Call) (window : Option Window) (pre : PTrie) (t : Int) (grp : List TRow) : Except PyErr (List MRow) :=
  let ids := isort c.idLe (grp.map TRow.id)
  match runCalc (c.at t window) c.targets (gatherApproximate c.targets) pre c.entity ids with
  | .error e => .error e
  | .ok rows =>
    if "_original_time" ∈ c.passCols then .error .other
    else .ok (isort (fun a b => decide (a.time ≤ b.time)) (grp.flatMap fun r =>
      match rows.filter fun x => x.1 = r.id with
      | [] => [⟨r.id, r.time, (c.approxCols.filter fun n => n ∉ c.passCols).map (fun _ => .null) ++ r.pass⟩]
      | found => found.map fun x => ⟨r.id, r.time, keepCells c x.2 ++ r.pass⟩))

/-- All rows with one binned time, with approximation (`calculate_feature_matrix.py` 371-451). `now` is `group_time`
(339-343). -/
def binMatrix (c : Call) (now : Int) (size : Option Nat) (b : Int) (rows : List TRow) : Except PyErr (List MRow) :=
  let grp := rows.map (stampTarget c.passCols b)
  match approximateFeatures c b rows with
  | .error e => .error e
  | .ok pre =>
    let together := noUnapproximatedAggs c.targets
    match pieces size (if together then [(now, grp)] else groupByKey TRow.time grp) with
    | .error e => .error e
    | .ok ps => concatAll (fun p => groupMatrixApprox c (if together then none else c.env.window) pre p.1 p.2) ps

/-- `calculate_chunk` with approximation (`calculate_feature_matrix.py` 331-486); rows come with their binned times. -/
def calculateBinned (c : Call) (now : Int) (size : Option Nat) (rows : List (Int × TRow)) : Except PyErr (List MRow) :=
  let groups := groupByKey Prod.fst rows
  if groups.isEmpty then .error .valueError
  else concatAll (fun g => binMatrix c now size g.1 (g.2.map Prod.snd)) groups

/-! ### Serial and parallel execution -/

/-- How the chunks are executed: in this process, or by workers. `order n` is the order in which `n` chunks complete. -/
inductive Exec where
  | serial
  | parallel (workers : Nat) (order : Nat → List Nat)

/-- The results in the order of completion (`calculate_feature_matrix.py` 666-671, 688). -/
def gather (order : Nat → List Nat) (results : List (Except PyErr (List MRow))) : Except PyErr (List MRow) :=
  if results.isEmpty then .error .valueError
  else concatAll id ((order results.length).filterMap fun i => results[i]?)

/-- The chunk size of a parallel run (`calculate_feature_matrix.py` 626-627): none, or zero, means one chunk per worker. -/
def parallelSize (workers : Nat) (size : Option Nat) (total : Nat) : Except PyErr Nat :=
  match size with
  | some (k + 1) => .ok (k + 1)
  | _ => handleChunkSize 1 workers total

/-- Running `work` on a cutoff table whose rows have the given keys: in one piece with the chunk size, or
(`parallel_calculate_chunks`, `calculate_feature_matrix.py` 619-690) on chunks of one key each, without a chunk size. -/
def execute {α : Type} (exec : Exec) (size : Option Nat) (total : Nat) (key : α → Int) (rows : List α)
    (work : Option Nat → List α → Except PyErr (List MRow)) : Except PyErr (List MRow) :=
  match exec with
  | .serial => work size rows
  | .parallel workers order =>
    match parallelSize workers size total with
    | .error e => .error e
    | .ok k =>
      match chunkGroups k (groupByKey key rows) with
      | .error e => .error e
      | .ok chunks => gather order (chunks.map fun ch => work none ch.2)

/-! ### A single cutoff time -/

/-- `calculate_chunk` for a single cutoff time (`calculate_feature_matrix.py` 345-368). -/
def singleMatrix (c : Call) (t : Int) (ids : List Val) : Except PyErr (List MRow) :=
  match runCalc (c.at t c.env.window) c.targets (Trie.new []) (Trie.new none) c.entity ids with
  | .error e => .error e
  | .ok rows => if rows.length = ids.length then .ok (rows.map fun r => ⟨r.1, t, r.2⟩) else .error .valueError

/-- Serial and parallel execution for a single cutoff time. -/
def executeSingle (exec : Exec) (size : Option Nat) (c : Call) (t : Int) (ids : List Val) : Except PyErr (List MRow) :=
  match exec with
  | .serial => singleMatrix c t ids
  | .parallel workers order =>
    match parallelSize workers size ids.length with
    | .error e => .error e
    | .ok k =>
      match chunkTuple k t ids with
      | .error e => .error e
      | .ok chunks => gather order (chunks.map fun ch => singleMatrix c ch.1 ch.2)

/-- `feature_matrix.reindex(ids, level=0)` (`calculate_feature_matrix.py` 308-311): the rows in the order of the ids; pandas
has not implemented this for repeated ids. -/
def reindexIds (cols : List String) (ids : List Val) (rows : List MRow) : Except PyErr Matrix :=
  if noDup ids then
    .ok { cols := cols, rows := ids.flatMap fun i => (rows.filter fun r => r.id = i).map fun r => (r.id, some r.time, r.vals) }
  else .error .notImplemented

/-! ### The driver -/

/-- The argument `cutoff_time` after its columns have been checked and renamed (`Model/Util.lean`). -/
inductive Cutoff where
  | table (passCols : List String) (rows : List CutRow)
  | single (t : Int)
  | missing

/-- The arguments of a call of `calculate_feature_matrix`. `now` is the current time; `chunkSize` any positive number. -/
structure CfmArgs where
  env : Env
  features : List Feat
  cutoff : Cutoff
  instanceIds : Option (List Val)
  approximate : Option Approx
  chunkSize : Option Rat
  exec : Exec
  inIndex : Bool
  now : Int
  idLe : Val → Val → Bool

/-- `_handle_chunk_size` (`calculate_feature_matrix.py` 257). -/
def chunkSizeOf (size : Option Rat) (total : Nat) : Except PyErr (Option Nat) :=
  match size with
  | none => .ok none
  | some r => (handleChunkSize r.num r.den total).map some

/-- Leaving the time out of the index (`calculate_feature_matrix.py` 312-313). -/
def dropTime (inIndex : Bool) (m : Matrix) : Matrix :=
  if inIndex then m else { m with rows := m.rows.map fun r => (r.1, none, r.2.2) }

/-- The driver for a cutoff table (`calculate_feature_matrix.py` 160-171, 209-313). -/
def cfmTable (a : CfmArgs) (passCols : List String) (cut : List CutRow) : Except PyErr Matrix :=
  let c : Call := ⟨a.env, a.features, passCols, a.idLe⟩
  if noDup (cut.map fun r => (r.id, r.time)) then
    match a.approximate with
    | none =>
      match chunkSizeOf a.chunkSize cut.length with
      | .error e => .error e
      | .ok size =>
        match execute a.exec size cut.length TRow.time (timed cut) (calculateExact c) with
        | .error e => .error e
        | .ok rows => (reindexTable (withPass c.featCols passCols) cut rows).map (dropTime a.inIndex)
    | some ap =>
      match binRows ap (timed cut) with
      | .error e => .error e
      | .ok binned =>
        match chunkSizeOf a.chunkSize cut.length with
        | .error e => .error e
        | .ok size =>
          match execute a.exec size cut.length Prod.fst binned (calculateBinned c a.now) with
          | .error e => .error e
          | .ok rows => (reindexTable c.approxCols cut rows).map (dropTime a.inIndex)
  else .error .assertionError

/-- The driver for a single cutoff time (`calculate_feature_matrix.py` 173-198, 209-313). -/
def cfmSingle (a : CfmArgs) (t : Int) (ids : List Val) : Except PyErr Matrix :=
  match a.approximate with
  | some _ => cfmTableAll a t ids
  | none =>
    let c : Call := ⟨a.env, a.features, [], a.idLe⟩
    match chunkSizeOf a.chunkSize ids.length with
    | .error e => .error e
    | .ok size =>
      match executeSingle a.exec size c t ids with
      | .error e => .error e
      | .ok rows => (reindexIds c.featCols ids rows).map (dropTime a.inIndex)
where
  /-- A single cutoff time with approximation is turned into a table (202-207), without the check for duplicates. -/
  cfmTableAll (a : CfmArgs) (t : Int) (ids : List Val) : Except PyErr Matrix :=
    let c : Call := ⟨a.env, a.features, [], a.idLe⟩
    let cut := ids.map fun i => (⟨i, some t, []⟩ : CutRow)
    match a.approximate with
    | none => .error .other
    | some ap =>
      match binRows ap (timed cut) with
      | .error e => .error e
      | .ok binned =>
        match chunkSizeOf a.chunkSize cut.length with
        | .error e => .error e
        | .ok size =>
          match execute a.exec size cut.length Prod.fst binned (calculateBinned c a.now) with
          | .error e => .error e
          | .ok rows => (reindexTable c.approxCols cut rows).map (dropTime a.inIndex)

/-- The ids a call without `instance_ids` is for (`calculate_feature_matrix.py` 180-187): those visible at the cutoff. -/
def defaultIds (a : CfmArgs) (t : Int) : Except PyErr (List Val) :=
  match a.env.getEnt ((a.features.head?.map Feat.entity).getD "") with
  | .error e => .error e
  | .ok ent =>
    match handleTime ent ent.df.rows (some t) a.env.window a.env.includeCutoff with
    | .error e => .error e
    | .ok rows => .ok (rows.map fun r => r ent.index)

/-- `calculate_feature_matrix` (`calculate_feature_matrix.py` 138-328). A given `instance_ids` is ignored beside a cutoff
table (163-165). -/
def calculateFeatureMatrix (a : CfmArgs) : Except PyErr Matrix :=
  if a.features.isEmpty then .error .assertionError
  else match a.cutoff with
    | .table passCols cut => cfmTable a passCols cut
    | .single t => go t
    | .missing => go a.now
where
  /-- A single time, given or the current one. -/
  go (t : Int) : Except PyErr Matrix :=
    match a.instanceIds with
    | some ids => cfmSingle a t ids
    | none => match defaultIds a t with
      | .error e => .error e
      | .ok ids => cfmSingle a t ids

end FT
