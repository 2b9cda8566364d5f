import Verif.Props.ApproxPlain
/-!
# C34: `approximate` with a single cutoff time

A single cutoff time, or none, with `approximate` is turned into a table with a row for every instance (`calculate_feature_matrix.py`
202-207). The rows are those of such a table.
-/
namespace FT
open Spec

/-- C34. With `approximate`, a call with a single cutoff time for some instances is the call with the table of these instances at that
time; also when it raises. -/
theorem C34_single_is_table (a : CfmArgs) (hf : a.features ≠ []) (t : Int)
    (hcut : a.cutoff = .single t ∨ (a.cutoff = .missing ∧ a.now = t)) (ap : Approx) (happ : a.approximate = some ap)
    (ids : List Val) (hids : a.instanceIds = some ids) (hdist : ids.Nodup) :
    calculateFeatureMatrix a = calculateFeatureMatrix { a with cutoff := .table [] (ids.map fun i => ⟨i, some t, []⟩) } := by
  have hf' : a.features.isEmpty = false := by simpa using hf
  have hnd : noDup ((ids.map fun i => (⟨i, some t, []⟩ : CutRow)).map fun r => (r.id, r.time)) = true := by
    rw [noDup_iff, List.map_map]
    exact List.Pairwise.map _ (fun _ _ h h' => h (Prod.mk.inj h').1) hdist
  have hgo : calculateFeatureMatrix a = cfmSingle.cfmTableAll a t ids := by
    unfold calculateFeatureMatrix
    rw [if_neg (by simp [hf'])]
    rcases hcut with h | ⟨h, rfl⟩ <;> (rw [h]; simp only [calculateFeatureMatrix.go, hids, cfmSingle, happ])
  rw [hgo]
  unfold calculateFeatureMatrix cfmSingle.cfmTableAll
  simp only [hf', Bool.false_eq_true, if_false, cfmTable, hnd, if_true, happ]

theorem entityOk_at {env : Env} {e : String} (h : EntityOk env e) (t : Int) : EntityOk { env with timeLast := t } e :=
  ⟨h.there, h.indexKey, h.timeKey, h.keys, h.distinct, h.present, h.notSecondary⟩

/-- Without `instance_ids` the call is for the instances there are at the cutoff. -/
theorem cfm_all_instances (a : CfmArgs) (f0 : Feat) (fs : List Feat) (hf : a.features = f0 :: fs) (t : Int)
    (hcut : a.cutoff = .single t ∨ (a.cutoff = .missing ∧ a.now = t)) (hids : a.instanceIds = none)
    (hent : EntityOk { a.env with timeLast := t } f0.entity) (hwin : a.env.window.all Window.hasNoObservations = true) :
    calculateFeatureMatrix a = calculateFeatureMatrix { a with instanceIds := some ((worldAt a.env t).ids f0.entity) } := by
  have hdef : defaultIds a t = .ok ((worldAt a.env t).ids f0.entity) := defaultIds_of a f0 fs hf t hent hwin
  obtain ⟨env, features, cutoff, instanceIds, approximate, chunkSize, exec, inIndex, now, idLe⟩ := a
  simp only at hf hcut hids hdef
  subst hf hids
  unfold calculateFeatureMatrix
  simp only [List.isEmpty_cons, Bool.false_eq_true, if_false]
  rcases hcut with rfl | ⟨rfl, rfl⟩
  · simp only [calculateFeatureMatrix.go, hdef]; rfl
  · simp only [calculateFeatureMatrix.go, hdef]; rfl

/-- C34. A single cutoff time with `approximate`, where some aggregation is not approximated: every given instance, known or not, gets
a row with the approximated aggregations at the bin of that time, and all else at that time. -/
theorem C34_single_partial (a : CfmArgs) (f0 : Feat) (fs : List Feat) (hf : a.features = f0 :: fs) (t : Int)
    (hcut : a.cutoff = .single t ∨ (a.cutoff = .missing ∧ a.now = t)) (ap : Approx) (happ : a.approximate = some ap) (bin : Int → Int)
    (hbin : Bins ap bin) (ids : List Val) (hids : a.instanceIds = some ids) (hne : ids ≠ []) (hdist : ids.Nodup)
    (hagg : ¬ OnlyApproximated a.features) (C : Computable a.env a.features f0.entity) (P : CanApproximate a.env a.features)
    (hsize : SizeOk a.chunkSize) (hexec : Fair a.exec) :
    calculateFeatureMatrix a = .ok {
      cols := a.features.flatMap Feat.names,
      rows := ids.map fun i => (i, if a.inIndex then some t else none,
        answerAt (worldAt a.env t) (lookedUp a.env a.features (bin t)) f0.entity a.features i) } := by
  rw [C34_single_is_table a (by rw [hf]; simp) t hcut ap happ ids hids hdist]
  obtain ⟨i0, hi0⟩ := List.exists_mem_of_ne_nil ids hne
  have := (C34_plain_partial { a with cutoff := .table [] (ids.map fun i => ⟨i, some t, []⟩) } f0 fs hf [] _ rfl ap happ bin hbin
    ⟨_, List.mem_map.mpr ⟨i0, hi0, rfl⟩, by simp⟩ (by
      rw [List.map_map]
      exact List.Pairwise.map _ (fun _ _ h h' => h (Prod.mk.inj h').1) hdist)
    (by intro r hr; obtain ⟨i, _, rfl⟩ := List.mem_map.mp hr; rfl) (by simp) hagg C P hsize hexec).1
  rw [this]
  simp only [List.append_nil, List.map_map, Function.comp_def]

/-- C34. The same when every aggregation is approximated: all else is computed with the data there is now, without a window. -/
theorem C34_single_now_partial (a : CfmArgs) (f0 : Feat) (fs : List Feat) (hf : a.features = f0 :: fs) (t : Int)
    (hcut : a.cutoff = .single t ∨ (a.cutoff = .missing ∧ a.now = t)) (ap : Approx) (happ : a.approximate = some ap) (bin : Int → Int)
    (hbin : Bins ap bin) (ids : List Val) (hids : a.instanceIds = some ids) (hne : ids ≠ []) (hdist : ids.Nodup)
    (hagg : OnlyApproximated a.features) (C : Computable a.env a.features f0.entity) (P : CanApproximate a.env a.features)
    (hsize : SizeOk a.chunkSize) (hexec : Fair a.exec) :
    calculateFeatureMatrix a = .ok {
      cols := a.features.flatMap Feat.names,
      rows := ids.map fun i => (i, if a.inIndex then some t else none,
        answerAt (worldOf { a.env with timeLast := a.now, window := none }) (lookedUp a.env a.features (bin t)) f0.entity a.features i) } := by
  rw [C34_single_is_table a (by rw [hf]; simp) t hcut ap happ ids hids hdist]
  obtain ⟨i0, hi0⟩ := List.exists_mem_of_ne_nil ids hne
  have := C34_plain_now_partial { a with cutoff := .table [] (ids.map fun i => ⟨i, some t, []⟩) } f0 fs hf [] _ rfl ap happ bin hbin
    ⟨_, List.mem_map.mpr ⟨i0, hi0, rfl⟩, by simp⟩ (by
      rw [List.map_map]
      exact List.Pairwise.map _ (fun _ _ h h' => h (Prod.mk.inj h').1) hdist)
    (by intro r hr; obtain ⟨i, _, rfl⟩ := List.mem_map.mp hr; rfl) (by simp) hagg C P (by
      intro r hr r' hr' t1 t2 _ _ _ hid _
      obtain ⟨i, _, rfl⟩ := List.mem_map.mp hr
      obtain ⟨j, _, rfl⟩ := List.mem_map.mp hr'
      simp only at hid
      rw [hid]) hsize hexec
  rw [this]
  simp only [List.append_nil, List.map_map, Function.comp_def]

/-- C34. Without `instance_ids`, the rows are the instances there are at the cutoff, in the order of the data, whether or not
aggregations remain. -/
theorem C34_all_instances_partial (a : CfmArgs) (f0 : Feat) (fs : List Feat) (hf : a.features = f0 :: fs) (t : Int)
    (hcut : a.cutoff = .single t ∨ (a.cutoff = .missing ∧ a.now = t)) (ap : Approx) (happ : a.approximate = some ap) (bin : Int → Int)
    (hbin : Bins ap bin) (hids : a.instanceIds = none) (hne : (worldAt a.env t).ids f0.entity ≠ [])
    (C : Computable a.env a.features f0.entity) (P : CanApproximate a.env a.features)
    (rest : Env) (hrest : (OnlyApproximated a.features ∧ rest = { a.env with timeLast := a.now, window := none }) ∨
      (¬ OnlyApproximated a.features ∧ rest = { a.env with timeLast := t }))
    (hsize : SizeOk a.chunkSize) (hexec : Fair a.exec) :
    calculateFeatureMatrix a = .ok {
      cols := a.features.flatMap Feat.names,
      rows := ((worldAt a.env t).ids f0.entity).map fun i => (i, if a.inIndex then some t else none,
        answerAt (worldOf rest) (lookedUp a.env a.features (bin t)) f0.entity a.features i) } := by
  rw [cfm_all_instances a f0 fs hf t hcut hids (entityOk_at C.entityOk t) C.window]
  have hdist := (visible_ids (env := { a.env with timeLast := t }) (entityOk_at C.entityOk t) C.window).1
  rcases hrest with ⟨hagg, rfl⟩ | ⟨hagg, rfl⟩
  · exact C34_single_now_partial { a with instanceIds := some ((worldAt a.env t).ids f0.entity) } f0 fs hf t hcut ap happ bin hbin _ rfl hne
      hdist hagg C P hsize hexec
  · exact C34_single_partial { a with instanceIds := some ((worldAt a.env t).ids f0.entity) } f0 fs hf t hcut ap happ bin hbin _ rfl hne
      hdist hagg C P hsize hexec

end FT
