import Verif.Model.Progress
/-!
# Watching a calculation does not change it
-/
namespace FT
namespace Watched

theorem bind_out {α β : Type} (m : Watched α) (k : α → Watched β) :
    (m.bind k).out = match m.out with | .ok a => (k a).out | .error e => .error e := by
  unfold bind; cases m.out <;> rfl

theorem quiet_out {α : Type} (x : Except PyErr α) : (quiet x).out = x := rfl

theorem after_out {α : Type} (x : Except PyErr α) (l : List Rat) : (after x l).out = x := by cases x <;> rfl

theorem scale_out {α : Type} (r : Rat) (m : Watched α) : (scale r m).out = m.out := rfl

end Watched

open Watched

theorem groupW_out (m : Meter) (env : Env) (idx : String) (fs : List Feat) (t : Table) (dfs : DTrie) :
    (groupW m env idx fs t dfs).out = calcGroup env idx fs t dfs := by
  cases fs with
  | nil => rfl
  | cons f fs =>
    unfold groupW
    dsimp only
    cases hk : f.kind <;> simp only [after_out]

theorem groupsW_out (m : Meter) (env : Env) (idx : String) (dfs : DTrie) (gs : List (List Feat)) (t : Table) :
    (groupsW m env idx dfs gs t).out = calcGroups env idx dfs gs t := by
  induction gs generalizing t with
  | nil => rfl
  | cons g gs ih =>
    simp only [groupsW, bind_out, groupW_out, ih, calcGroups]
    cases calcGroup env idx g t dfs <;> rfl

theorem featuresW_out (m : Meter) (env : Env) (idx : String) (fs : List Feat) (t : Table) (dfs : DTrie) :
    (featuresW m env idx fs t dfs).out = calcFeatures env idx fs t dfs := groupsW_out ..

theorem fullStepW_out (m : Meter) (env : Env) (byName : String → Option Feat) (idx : String) (v : NodeVal) (fv : String)
    (fvals : List Val) (df : Table) (fulls : DTrie) :
    (fullStepW m env byName idx v fv fvals df fulls).out = fullStep env byName idx v fv fvals df fulls := by
  unfold fullStepW fullStep
  split
  · simp only [bind_out, quiet_out, featuresW_out]
    cases findFeats byName v.full with
    | error e => rfl
    | ok fs =>
      dsimp only
      cases calcFeatures env idx fs df fulls with
      | error e => rfl
      | ok df1 => dsimp only; cases filterDf fv fvals df1 <;> rfl
  · rfl

theorem finishNodeW_out (m : Meter) (env : Env) (byName : String → Option Feat) (e : String) (v : NodeVal) (fv : String)
    (fvals : List Val) (df : Table) (pre : Option PreTable) (kids : List (Edge × DTrie × DTrie)) :
    (finishNodeW m env byName e v fv fvals df pre kids).out = finishNode env byName e v fv fvals df pre kids := by
  unfold finishNodeW finishNode
  simp only [bind_out, quiet_out, after_out, featuresW_out, fullStepW_out]
  cases env.getEnt e with
  | error e => rfl
  | ok ent =>
    dsimp only
    cases fullStep env byName ent.index v fv fvals (mergePre ent.index df pre)
        (Trie.node none (kids.map fun k => (k.1, k.2.2))) with
    | error e => rfl
    | ok r =>
      dsimp only
      cases findFeats byName v.notFull with
      | error e => rfl
      | ok fs =>
        dsimp only
        cases calcFeatures env ent.index fs r.1 (Trie.node none (kids.map fun k => (k.1, k.2.1))) <;> rfl

mutual
theorem nodeW_out (m : Meter) (env : Env) (byName : String → Option Feat) :
    ∀ (t : FTrie) (pre : PTrie) (e fv : String) (fvals : List Val) (pd : Option ParentData),
    (nodeW m env byName t pre e fv fvals pd).out = calcNode env byName t pre e fv fvals pd
  | .node v cs, pre, e, fv, fvals, pd => by
    simp only [nodeW, calcNode, bind_out, quiet_out, after_out, finishNodeW_out]
    cases prepNode env byName e v fv fvals pd with
    | error e => rfl
    | ok p =>
      dsimp only
      cases filteredDf v fv fvals p.1 with
      | error e => rfl
      | ok filtered =>
        dsimp only
        rw [kidsW_out m env byName cs]
        cases calcKids env byName cs pre p.1 filtered p.2 <;> rfl
theorem kidsW_out (m : Meter) (env : Env) (byName : String → Option Feat) :
    ∀ (cs : List (Edge × FTrie)) (pre : PTrie) (df filtered : Table) (newAnc : List String),
    (kidsW m env byName cs pre df filtered newAnc).out = calcKids env byName cs pre df filtered newAnc
  | [], _, _, _, _ => by simp only [kidsW, calcKids, quiet_out]
  | (edge, sub) :: rest, pre, df, filtered, newAnc => by
    simp only [kidsW, calcKids, bind_out, quiet_out]
    cases subArgs edge df filtered newAnc with
    | error e => rfl
    | ok a =>
      obtain ⟨e, fv, fvals, pd⟩ := a
      dsimp only
      rw [nodeW_out m env byName sub]
      cases calcNode env byName sub (Trie.nodeAt none [edge] pre) e fv fvals pd with
      | error e => rfl
      | ok r =>
        dsimp only
        rw [kidsW_out m env byName rest]
        cases calcKids env byName rest pre df filtered newAnc <;> rfl
end

theorem runW_out (merged : List Feat → Nat) (env : Env) (targets : List Feat) (approx : ATrie) (pre : PTrie) (e : String)
    (ids : List Val) : (runW merged env targets approx pre e ids).out = runCalc env targets approx pre e ids := by
  unfold runW runCalc
  split
  · rfl
  · simp only [bind_out, quiet_out, nodeW_out]
    cases env.getEnt e with
    | error e => rfl
    | ok ent =>
      dsimp only
      cases calcNode env (lookupFeature (featuresByName targets)) (buildTrie targets approx) pre e ent.index ids none with
      | error e => rfl
      | ok r => obtain ⟨d, f⟩ := r; rfl

theorem concatAllW_out {α β : Type} (g : α → Watched (List β)) (l : List α) :
    (concatAllW g l).out = concatAll (fun a => (g a).out) l := by
  induction l with
  | nil => rfl
  | cons a l ih =>
    simp only [concatAllW, concatAll, bind_out, quiet_out, ih]
    cases (g a).out with
    | error e => rfl
    | ok x => dsimp only; cases concatAll (fun a => (g a).out) l <;> rfl

theorem groupMatrixW_out (merged : List Feat → Nat) (c : Call) (t : Int) (grp : List TRow) :
    (groupMatrixW merged c t grp).out = groupMatrix c t grp := by
  unfold groupMatrixW groupMatrix
  simp only [bind_out, quiet_out, scale_out, runW_out]
  cases runCalc (c.at t c.env.window) c.targets (Trie.new []) (Trie.new none) c.entity (isort c.idLe (grp.map TRow.id)) <;> rfl

theorem calculateExactW_out (merged : List Feat → Nat) (c : Call) (size : Option Nat) (rows : List TRow) :
    (calculateExactW merged c size rows).out = calculateExact c size rows := by
  unfold calculateExactW calculateExact
  dsimp only
  split
  · rfl
  · rw [concatAllW_out]
    congr 1
    funext g
    simp only [bind_out, quiet_out, concatAllW_out, groupMatrixW_out]
    cases pieces size (groupByKey TRow.time g.2) <;> rfl

theorem groupMatrixApproxW_out (merged : List Feat → Nat) (c : Call) (window : Option Window) (pre : PTrie) (t : Int)
    (grp : List TRow) : (groupMatrixApproxW merged c window pre t grp).out = groupMatrixApprox c window pre t grp := by
  unfold groupMatrixApproxW
  simp only [bind_out, quiet_out, scale_out, runW_out]
  unfold groupMatrixApprox
  dsimp only
  cases runCalc (c.at t window) c.targets (gatherApproximate c.targets) pre c.entity (isort c.idLe (grp.map TRow.id)) <;> rfl

theorem binMatrixW_out (merged : List Feat → Nat) (c : Call) (now : Int) (size : Option Nat) (b : Int) (rows : List TRow) :
    (binMatrixW merged c now size b rows).out = binMatrix c now size b rows := by
  unfold binMatrixW binMatrix
  simp only [bind_out, quiet_out, concatAllW_out, groupMatrixApproxW_out]
  cases approximateFeatures c b rows with
  | error e => rfl
  | ok pre =>
    dsimp only
    cases pieces size (if noUnapproximatedAggs c.targets = true then [(now, rows.map (stampTarget c.passCols b))]
      else groupByKey TRow.time (rows.map (stampTarget c.passCols b))) <;> rfl

theorem calculateBinnedW_out (merged : List Feat → Nat) (c : Call) (now : Int) (size : Option Nat)
    (rows : List (Int × TRow)) : (calculateBinnedW merged c now size rows).out = calculateBinned c now size rows := by
  unfold calculateBinnedW calculateBinned
  dsimp only
  split
  · rfl
  · simp only [concatAllW_out, binMatrixW_out]

theorem gatherW_out (order : Nat → List Nat) (results : List (Except PyErr (List MRow))) :
    (gatherW order results).out = gather order results := by
  unfold gatherW gather
  split
  · rfl
  · rw [concatAllW_out]
    congr 1
    funext r
    cases r <;> rfl

theorem executeW_out {α : Type} (exec : Exec) (size : Option Nat) (total : Nat) (key : α → Int) (rows : List α)
    (workW : Option Nat → List α → Watched (List MRow)) (work : Option Nat → List α → Except PyErr (List MRow))
    (h : ∀ s r, (workW s r).out = work s r) :
    (executeW exec size total key rows workW).out = execute exec size total key rows work := by
  unfold executeW execute
  cases exec with
  | serial => exact h ..
  | parallel workers order =>
    simp only [bind_out, quiet_out, gatherW_out, h]
    cases parallelSize workers size total with
    | error e => rfl
    | ok k => dsimp only; cases chunkGroups k (groupByKey key rows) <;> rfl

theorem singleMatrixW_out (merged : List Feat → Nat) (c : Call) (t : Int) (ids : List Val) :
    (singleMatrixW merged c t ids).out = singleMatrix c t ids := by
  unfold singleMatrixW singleMatrix
  simp only [bind_out, quiet_out, scale_out, runW_out]
  cases runCalc (c.at t c.env.window) c.targets (Trie.new []) (Trie.new none) c.entity ids <;> rfl

theorem executeSingleW_out (merged : List Feat → Nat) (exec : Exec) (size : Option Nat) (c : Call) (t : Int)
    (ids : List Val) : (executeSingleW merged exec size c t ids).out = executeSingle exec size c t ids := by
  unfold executeSingleW executeSingle
  cases exec with
  | serial => exact singleMatrixW_out ..
  | parallel workers order =>
    simp only [bind_out, quiet_out, gatherW_out, singleMatrixW_out]
    cases parallelSize workers size ids.length with
    | error e => rfl
    | ok k => dsimp only; cases chunkTuple k t ids <;> rfl

theorem withBar_out {α β : Type} (rows : Nat) (m : Watched α) (rest : α → Except PyErr β) :
    (withBar rows m rest).2 = match m.out with | .ok a => rest a | .error e => .error e := by
  unfold withBar
  dsimp only
  cases m.out with
  | error e => rfl
  | ok a => dsimp only; cases rest a <;> rfl

theorem cfmTableW_out (merged : List Feat → Nat) (a : CfmArgs) (passCols : List String) (cut : List CutRow) :
    (cfmTableW merged a passCols cut).2 = cfmTable a passCols cut := by
  unfold cfmTableW cfmTable
  dsimp only
  split
  · cases a.approximate with
    | none =>
      dsimp only
      cases chunkSizeOf a.chunkSize cut.length with
      | error e => rfl
      | ok size =>
        dsimp only
        rw [withBar_out, executeW_out _ _ _ _ _ _ _ (calculateExactW_out merged _)]
        cases execute a.exec size cut.length TRow.time (timed cut)
          (calculateExact ⟨a.env, a.features, passCols, a.idLe⟩) <;> rfl
    | some ap =>
      dsimp only
      cases binRows ap (timed cut) with
      | error e => rfl
      | ok binned =>
        dsimp only
        cases chunkSizeOf a.chunkSize cut.length with
        | error e => rfl
        | ok size =>
          dsimp only
          rw [withBar_out, executeW_out _ _ _ _ _ _ _ (calculateBinnedW_out merged _ _)]
          cases execute a.exec size cut.length Prod.fst binned
            (calculateBinned ⟨a.env, a.features, passCols, a.idLe⟩ a.now) <;> rfl
  · rfl

theorem cfmSingleW_out (merged : List Feat → Nat) (a : CfmArgs) (t : Int) (ids : List Val) :
    (cfmSingleW merged a t ids).2 = cfmSingle a t ids := by
  unfold cfmSingleW cfmSingle cfmSingle.cfmTableAll
  dsimp only
  cases ha : a.approximate with
  | none =>
    dsimp only
    cases chunkSizeOf a.chunkSize ids.length with
    | error e => rfl
    | ok size =>
      dsimp only
      rw [withBar_out, executeSingleW_out]
      cases executeSingle a.exec size ⟨a.env, a.features, [], a.idLe⟩ t ids <;> rfl
  | some ap =>
    dsimp only
    cases binRows ap (timed (ids.map fun i => (⟨i, some t, []⟩ : CutRow))) with
    | error e => rfl
    | ok binned =>
      dsimp only
      cases chunkSizeOf a.chunkSize (ids.map fun i => (⟨i, some t, []⟩ : CutRow)).length with
      | error e => rfl
      | ok size =>
        dsimp only
        rw [withBar_out, executeW_out _ _ _ _ _ _ _ (calculateBinnedW_out merged _ _)]
        cases execute a.exec size (ids.map fun i => (⟨i, some t, []⟩ : CutRow)).length Prod.fst binned
          (calculateBinned ⟨a.env, a.features, [], a.idLe⟩ a.now) <;> rfl

theorem watched_out (merged : List Feat → Nat) (a : CfmArgs) :
    (watchedFeatureMatrix merged a).2 = calculateFeatureMatrix a := by
  have go : ∀ t, (watchedFeatureMatrix.go merged a t).2 = calculateFeatureMatrix.go a t := by
    intro t
    unfold watchedFeatureMatrix.go calculateFeatureMatrix.go
    cases a.instanceIds with
    | some ids => exact cfmSingleW_out ..
    | none => dsimp only; cases defaultIds a t with
      | error e => rfl
      | ok ids => exact cfmSingleW_out ..
  unfold watchedFeatureMatrix calculateFeatureMatrix
  split
  · rfl
  · cases a.cutoff with
    | table p c => exact cfmTableW_out ..
    | single t => exact go t
    | missing => exact go a.now

end FT
