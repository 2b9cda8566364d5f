import Verif.Model.Cfm
/-!
# Progress reports

Models the calls of `progress_callback` made by `calculate_feature_matrix` (`computational_backends/calculate_feature_matrix.py`
250-328, 331-434, 587-690, 747-751) and by the calculator (`computational_backends/feature_set_calculator.py` 60-66, 101-104,
230-328, 425-728).  The calculation itself is that of `Model/Calculator.lean` and `Model/Cfm.lean`, here with the calls that are
made on the way.  Numbers are exact (floats in the code); the elapsed time, the third argument of the callback, is left out, and
so is a callback that raises.
-/
namespace FT

/-- A calculation with the amounts reported on the way, in order, and its outcome. -/
structure Watched (α : Type) where
  ticks : List Rat
  out : Except PyErr α

namespace Watched

/-- Go on with the value; after an error nothing more is reported. -/
def bind {α β : Type} (m : Watched α) (k : α → Watched β) : Watched β :=
  match m.out with
  | .error e => ⟨m.ticks, .error e⟩
  | .ok a => ⟨m.ticks ++ (k a).ticks, (k a).out⟩

/-- A step without reports. -/
def quiet {α : Type} (x : Except PyErr α) : Watched α := ⟨[], x⟩

/-- A step that reports the given amounts when it has succeeded. -/
def after {α : Type} (x : Except PyErr α) (l : List Rat) : Watched α :=
  match x with
  | .ok a => ⟨l, .ok a⟩
  | .error e => ⟨[], .error e⟩

/-- `progress_bar.update(done * rows)` (`calculate_feature_matrix.py` 350, 392): the amounts in rows. -/
def scale {α : Type} (r : Rat) (m : Watched α) : Watched α := ⟨m.ticks.map fun x => x * r, m.out⟩

end Watched

/-- What the amounts depend on: `num_features` (`feature_set_calculator.py` 66) and the number of columns of the table made by
`agg` for a list of features (`feature_set_calculator.py` 701, 727: one for each column and function, see `Model/AggNames.lean`). -/
structure Meter where
  num : Nat
  merged : List Feat → Nat

/-- The reports of a loop over features that reports after each (`feature_set_calculator.py` 467, 524). -/
def eachTick {β : Type} (m : Meter) (g : Feat → Except PyErr β) : List Feat → List Rat
  | [] => []
  | f :: fs => match g f with
    | .ok _ => (1 : Rat) / m.num :: eachTick m g fs
    | .error _ => []

/-- Is the aggregation done by `agg` (`feature_set_calculator.py` 638)? -/
def byAgg (f : Feat) : Bool := match f.kind with | .agg _ p _ _ => canAgg f p | _ => false

/-- The reports of the branch with child rows (`feature_set_calculator.py` 691, 727). -/
def aggRowsTicks (m : Meter) (fl : List Feat) : List Rat :=
  let toApply := fl.filter fun f => !byAgg f
  let toAgg := fl.filter byAgg
  (if toApply.isEmpty then [] else [(toApply.length : Rat) / m.num]) ++
    (if toAgg.isEmpty then [] else [(m.merged toAgg : Rat) / m.num])

/-- `_calculate_agg_features` (`feature_set_calculator.py` 575-728): after features that are there already have been left out,
nothing is left to report for them (590-591). A group that fails in `apply` or `agg` has reported nothing here. -/
def aggTicks (m : Meter) (env : Env) (idx : String) (fs : List Feat) (frame : Table) (dfs : DTrie) : List Rat :=
  match fs with
  | [] => []
  | test :: _ =>
    let fl := fs.filter fun f => f.names.any fun n => !frame.cols.contains n
    if fl.isEmpty then [0 / m.num]
    else match (Trie.nodeAt none test.path dfs).value with
      | none => []
      | some base =>
        match whereFilter test base with
        | .error _ => []
        | .ok base =>
          if base.rows.isEmpty then fl.map fun _ => (1 : Rat) / m.num
          else
            let ti := (test.bases.head?.bind fun b => env.ent b.entity).bind Ent.timeIndex
            match aggRows env idx ti test fl frame base with
            | .error _ => []
            | .ok _ => aggRowsTicks m fl

/-- `_calculate_groupby_features` (`feature_set_calculator.py` 472-526). -/
def groupbyTicks (m : Meter) (env : Env) (idx : String) (fs : List Feat) (t : Table) : List Rat :=
  let t1 := setDefaults fs t
  if t1.rows.isEmpty then [(fs.length : Rat) / m.num]
  else match fs.head?.bind fun f => f.bases.getLast? with
    | none => []
    | some grp => eachTick m (groupCells env idx grp.name t1) fs

/-- `_calculate_transform_features` (`feature_set_calculator.py` 434-470). -/
def transTicks (m : Meter) (env : Env) (fs : List Feat) (t : Table) : List Rat :=
  if t.rows.isEmpty then fs.map fun _ => (1 : Rat) / m.num else eachTick m (transCells env t) fs

/-- One group of features with its reports (`feature_set_calculator.py` 336-339, 411-728). -/
def groupW (m : Meter) (env : Env) (idx : String) (fs : List Feat) (t : Table) (dfs : DTrie) : Watched Table :=
  match fs with
  | [] => ⟨[], calcGroup env idx [] t dfs⟩
  | f :: fs' =>
    match f.kind with
    | .identity _ => .after (calcGroup env idx (f :: fs') t dfs) [((f :: fs').length : Rat) / m.num]
    | .direct _ => .after (calcGroup env idx (f :: fs') t dfs) [((f :: fs').length : Rat) / m.num]
    | .agg _ _ _ _ => ⟨aggTicks m env idx (f :: fs') t dfs, calcGroup env idx (f :: fs') t dfs⟩
    | .trans _ => ⟨transTicks m env (f :: fs') t, calcGroup env idx (f :: fs') t dfs⟩
    | .groupby _ => ⟨groupbyTicks m env idx (f :: fs') t, calcGroup env idx (f :: fs') t dfs⟩
    | .slice _ => ⟨[], calcGroup env idx (f :: fs') t dfs⟩

/-- The loop over the feature groups (`feature_set_calculator.py` 336-341). -/
def groupsW (m : Meter) (env : Env) (idx : String) (dfs : DTrie) : List (List Feat) → Table → Watched Table
  | [], t => .quiet (.ok t)
  | g :: gs, t => (groupW m env idx g t dfs).bind fun t' => groupsW m env idx dfs gs t'

/-- `_calculate_features` (`feature_set_calculator.py` 330-341). -/
def featuresW (m : Meter) (env : Env) (idx : String) (fs : List Feat) (t : Table) (dfs : DTrie) : Watched Table :=
  groupsW m env idx dfs (groupFeatures env.rels fs) t

/-- Step 4 when the node needs the full entity (`feature_set_calculator.py` 310-321). -/
def fullStepW (m : Meter) (env : Env) (byName : String → Option Feat) (idx : String) (v : NodeVal) (fv : String)
    (fvals : List Val) (df : Table) (fulls : DTrie) : Watched (Table × Option Table) :=
  if v.need then
    (Watched.quiet (findFeats byName v.full)).bind fun fs =>
      (featuresW m env idx fs df fulls).bind fun df1 =>
        (Watched.quiet (filterDf fv fvals df1)).bind fun df2 => .quiet (.ok (df2, some df1))
  else .quiet (.ok (df, none))

/-- Steps 4 and 5 (`feature_set_calculator.py` 292-328): a report of nothing (308), then the features. -/
def finishNodeW (m : Meter) (env : Env) (byName : String → Option Feat) (e : String) (v : NodeVal) (fv : String)
    (fvals : List Val) (df : Table) (pre : Option PreTable) (kids : List (Edge × DTrie × DTrie)) : Watched (DTrie × DTrie) :=
  let dfKids := kids.map fun k => (k.1, k.2.1)
  let fullKids := kids.map fun k => (k.1, k.2.2)
  (Watched.after (env.getEnt e) [0]).bind fun ent =>
    (fullStepW m env byName ent.index v fv fvals (mergePre ent.index df pre) (.node none fullKids)).bind fun r =>
      (Watched.quiet (findFeats byName v.notFull)).bind fun fs =>
        (featuresW m env ent.index fs r.1 (.node none dfKids)).bind fun df3 =>
          .quiet (.ok (.node (some df3) dfKids, .node r.2 fullKids))

mutual
/-- `_calculate_features_for_entity` (`feature_set_calculator.py` 161-328): two reports of nothing (231, 248) once the rows and
the link columns are there, the reports of the children, those of the node. -/
def nodeW (m : Meter) (env : Env) (byName : String → Option Feat) :
    FTrie → PTrie → String → String → List Val → Option ParentData → Watched (DTrie × DTrie)
  | .node v cs, pre, e, fv, fvals, pd =>
    (Watched.after (prepNode env byName e v fv fvals pd) [0, 0]).bind fun p =>
      (Watched.quiet (filteredDf v fv fvals p.1)).bind fun filtered =>
        (kidsW m env byName cs pre p.1 filtered p.2).bind fun kids =>
          finishNodeW m env byName e v fv fvals p.1 pre.value kids
/-- The loop over the children (`feature_set_calculator.py` 261-290). -/
def kidsW (m : Meter) (env : Env) (byName : String → Option Feat) :
    List (Edge × FTrie) → PTrie → Table → Table → List String → Watched (List (Edge × DTrie × DTrie))
  | [], _, _, _, _ => .quiet (.ok [])
  | (edge, sub) :: rest, pre, df, filtered, newAnc =>
    (Watched.quiet (subArgs edge df filtered newAnc)).bind fun a =>
      (nodeW m env byName sub (Trie.nodeAt none [edge] pre) a.1 a.2.1 a.2.2.1 a.2.2.2).bind fun r =>
        (kidsW m env byName rest pre df filtered newAnc).bind fun rs => .quiet (.ok ((edge, r) :: rs))
end

/-- `num_features` (`feature_set_calculator.py` 66). -/
def numFeatures (t : FTrie) : Nat := (t.toList.map fun pv => pv.2.full.length + pv.2.notFull.length).sum

/-- `FeatureSetCalculator.run` (`feature_set_calculator.py` 60-66, 68-159) with its reports. -/
def runW (merged : List Feat → Nat) (env : Env) (targets : List Feat) (approx : ATrie) (pre : PTrie) (e : String)
    (ids : List Val) : Watched (List (Val × List Val)) :=
  if ids.isEmpty then .quiet (.error .assertionError)
  else (Watched.quiet (env.getEnt e)).bind fun ent =>
    let plan := buildTrie targets approx
    (nodeW ⟨numFeatures plan, merged⟩ env (lookupFeature (featuresByName targets)) plan pre e ent.index ids none).bind
      fun r => .quiet (match r.1.value with
        | none => .error .attributeError
        | some df => collectRows ent.index targets ids df)

/-- One piece of one cutoff time (`calculate_feature_matrix.py` 386-434): the amounts count the rows of the piece (392; `group`
there is the piece of the inner loop). -/
def groupMatrixW (merged : List Feat → Nat) (c : Call) (t : Int) (grp : List TRow) : Watched (List MRow) :=
  let ids := isort c.idLe (grp.map TRow.id)
  ((runW merged (c.at t c.env.window) c.targets (Trie.new []) (Trie.new none) c.entity ids).scale grp.length).bind
    fun rows => .quiet (
      if rows.length = ids.length then
        .ok (rows.map fun r => ⟨r.1, t, addPass c.featCols r.2 (passOf c.passCols grp r.1)⟩)
      else .error .valueError)

/-- Run over a list, concatenating the results; the first error ends the run. -/
def concatAllW {α β : Type} (g : α → Watched (List β)) : List α → Watched (List β)
  | [] => .quiet (.ok [])
  | a :: l => (g a).bind fun x => (concatAllW g l).bind fun y => .quiet (.ok (x ++ y))

/-- `calculate_chunk` without approximation (`calculate_feature_matrix.py` 370-486). -/
def calculateExactW (merged : List Feat → Nat) (c : Call) (size : Option Nat) (rows : List TRow) : Watched (List MRow) :=
  let groups := groupByKey TRow.time rows
  if groups.isEmpty then .quiet (.error .valueError)
  else concatAllW (fun g => (Watched.quiet (pieces size (groupByKey TRow.time g.2))).bind fun ps =>
    concatAllW (fun p => groupMatrixW merged c p.1 p.2) ps) groups

/-- One piece with approximation (`calculate_feature_matrix.py` 386-451). -/
def groupMatrixApproxW (merged : List Feat → Nat) (c : Call) (window : Option Window) (pre : PTrie) (t : Int)
    (grp : List TRow) : Watched (List MRow) :=
  let ids := isort c.idLe (grp.map TRow.id)
  ((runW merged (c.at t window) c.targets (gatherApproximate c.targets) pre c.entity ids).scale grp.length).bind
    fun _ => .quiet (groupMatrixApprox c window pre t grp)

/-- All rows with one binned time, with approximation (`calculate_feature_matrix.py` 371-451). The approximate features are
computed by a call of `calculate_feature_matrix` without a callback (567-574). -/
def binMatrixW (merged : List Feat → Nat) (c : Call) (now : Int) (size : Option Nat) (b : Int) (rows : List TRow) :
    Watched (List MRow) :=
  let grp := rows.map (stampTarget c.passCols b)
  (Watched.quiet (approximateFeatures c b rows)).bind fun pre =>
    let together := noUnapproximatedAggs c.targets
    (Watched.quiet (pieces size (if together then [(now, grp)] else groupByKey TRow.time grp))).bind fun ps =>
      concatAllW (fun p => groupMatrixApproxW merged c (if together then none else c.env.window) pre p.1 p.2) ps

/-- `calculate_chunk` with approximation (`calculate_feature_matrix.py` 331-486). -/
def calculateBinnedW (merged : List Feat → Nat) (c : Call) (now : Int) (size : Option Nat) (rows : List (Int × TRow)) :
    Watched (List MRow) :=
  let groups := groupByKey Prod.fst rows
  if groups.isEmpty then .quiet (.error .valueError)
  else concatAllW (fun g => binMatrixW merged c now size g.1 (g.2.map Prod.snd)) groups

/-- The results in the order of completion (`calculate_feature_matrix.py` 666-677, 688): the rows of each are reported when it
is there; the workers have no progress bar (662) and report nothing.  A batch is one result here. -/
def gatherW (order : Nat → List Nat) (results : List (Except PyErr (List MRow))) : Watched (List MRow) :=
  if results.isEmpty then .quiet (.error .valueError)
  else concatAllW (fun r => match r with
    | .ok rows => ⟨[(rows.length : Rat)], .ok rows⟩
    | .error e => ⟨[], .error e⟩) ((order results.length).filterMap fun i => results[i]?)

/-- Serial or parallel (`calculate_feature_matrix.py` 268-300, 619-690). -/
def executeW {α : Type} (exec : Exec) (size : Option Nat) (total : Nat) (key : α → Int) (rows : List α)
    (workW : Option Nat → List α → Watched (List MRow)) : Watched (List MRow) :=
  match exec with
  | .serial => workW size rows
  | .parallel workers order =>
    (Watched.quiet (parallelSize workers size total)).bind fun k =>
      (Watched.quiet (chunkGroups k (groupByKey key rows))).bind fun chunks =>
        gatherW order (chunks.map fun ch => (workW none ch.2).out)

/-- `calculate_chunk` for a single cutoff time (`calculate_feature_matrix.py` 345-368). -/
def singleMatrixW (merged : List Feat → Nat) (c : Call) (t : Int) (ids : List Val) : Watched (List MRow) :=
  ((runW merged (c.at t c.env.window) c.targets (Trie.new []) (Trie.new none) c.entity ids).scale ids.length).bind
    fun rows => .quiet (if rows.length = ids.length then .ok (rows.map fun r => ⟨r.1, t, r.2⟩) else .error .valueError)

/-- Serial or parallel for a single cutoff time (`calculate_feature_matrix.py` 268-300, 619-690). -/
def executeSingleW (merged : List Feat → Nat) (exec : Exec) (size : Option Nat) (c : Call) (t : Int) (ids : List Val) :
    Watched (List MRow) :=
  match exec with
  | .serial => singleMatrixW merged c t ids
  | .parallel workers order =>
    (Watched.quiet (parallelSize workers size ids.length)).bind fun k =>
      (Watched.quiet (chunkTuple k t ids)).bind fun chunks =>
        gatherW order (chunks.map fun ch => (singleMatrixW merged c ch.1 ch.2).out)

/-- What the callback is told: `update` and `progress_percent` (`update_progress_callback_parameters`,
`calculate_feature_matrix.py` 747-751). -/
structure Report where
  update : Rat
  percent : Rat
deriving DecidableEq, Repr

/-- `FEATURE_CALCULATION_PERCENTAGE` (`calculate_feature_matrix.py` 41). -/
def calculationShare : Rat := 95 / 100

/-- The reports for amounts added to a bar that stands at `n` (`calculate_feature_matrix.py` 349-354, 391-396, 672-677). -/
def reportsFrom (total : Rat) : Rat → List Rat → List Report
  | _, [] => []
  | n, x :: xs => ⟨(n + x - n) / total * 100, (n + x) / total * 100⟩ :: reportsFrom total (n + x) xs

/-- The progress bar around the calculation (`calculate_feature_matrix.py` 250-326): the bar's total is the number of rows
divided by the share of the calculation; when the matrix is done the bar is moved to its total (318-324).  The rest of the work
(re-indexing) comes between. A call for no rows ends with an error before anything is reported. -/
def withBar {α β : Type} (rows : Nat) (m : Watched α) (rest : α → Except PyErr β) : List Report × Except PyErr β :=
  let total : Rat := rows / calculationShare
  let told := reportsFrom total 0 m.ticks
  match m.out with
  | .error e => (told, .error e)
  | .ok a =>
    match rest a with
    | .error e => (told, .error e)
    | .ok b =>
      let n := m.ticks.foldl (· + ·) 0
      (told ++ reportsFrom total n [total - n], .ok b)

/-- The driver for a cutoff table (`calculate_feature_matrix.py` 160-171, 209-328). -/
def cfmTableW (merged : List Feat → Nat) (a : CfmArgs) (passCols : List String) (cut : List CutRow) :
    List Report × Except PyErr Matrix :=
  let c : Call := ⟨a.env, a.features, passCols, a.idLe⟩
  if noDup (cut.map fun r => (r.id, r.time)) then
    match a.approximate with
    | none =>
      match chunkSizeOf a.chunkSize cut.length with
      | .error e => ([], .error e)
      | .ok size =>
        withBar cut.length (executeW a.exec size cut.length TRow.time (timed cut) (calculateExactW merged c))
          fun rows => (reindexTable (withPass c.featCols passCols) cut rows).map (dropTime a.inIndex)
    | some ap =>
      match binRows ap (timed cut) with
      | .error e => ([], .error e)
      | .ok binned =>
        match chunkSizeOf a.chunkSize cut.length with
        | .error e => ([], .error e)
        | .ok size =>
          withBar cut.length (executeW a.exec size cut.length Prod.fst binned (calculateBinnedW merged c a.now))
            fun rows => (reindexTable c.approxCols cut rows).map (dropTime a.inIndex)
  else ([], .error .assertionError)

/-- The driver for a single cutoff time (`calculate_feature_matrix.py` 173-207, 209-328); with approximation the time is
turned into a table. -/
def cfmSingleW (merged : List Feat → Nat) (a : CfmArgs) (t : Int) (ids : List Val) : List Report × Except PyErr Matrix :=
  let c : Call := ⟨a.env, a.features, [], a.idLe⟩
  match a.approximate with
  | some ap =>
    let cut := ids.map fun i => (⟨i, some t, []⟩ : CutRow)
    match binRows ap (timed cut) with
    | .error e => ([], .error e)
    | .ok binned =>
      match chunkSizeOf a.chunkSize cut.length with
      | .error e => ([], .error e)
      | .ok size =>
        withBar cut.length (executeW a.exec size cut.length Prod.fst binned (calculateBinnedW merged c a.now))
          fun rows => (reindexTable c.approxCols cut rows).map (dropTime a.inIndex)
  | none =>
    match chunkSizeOf a.chunkSize ids.length with
    | .error e => ([], .error e)
    | .ok size =>
      withBar ids.length (executeSingleW merged a.exec size c t ids)
        fun rows => (reindexIds c.featCols ids rows).map (dropTime a.inIndex)

/-- `calculate_feature_matrix` (`calculate_feature_matrix.py` 138-328) with a callback: what the callback is told, in order, and
the outcome. -/
def watchedFeatureMatrix (merged : List Feat → Nat) (a : CfmArgs) : List Report × Except PyErr Matrix :=
  if a.features.isEmpty then ([], .error .assertionError)
  else match a.cutoff with
    | .table passCols cut => cfmTableW merged a passCols cut
    | .single t => go t
    | .missing => go a.now
where
  /-- A single time, given or the current one. -/
  go (t : Int) : List Report × Except PyErr Matrix :=
    match a.instanceIds with
    | some ids => cfmSingleW merged a t ids
    | none => match defaultIds a t with
      | .error e => ([], .error e)
      | .ok ids => cfmSingleW merged a t ids

end FT
