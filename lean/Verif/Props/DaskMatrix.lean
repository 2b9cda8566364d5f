import Verif.Lemmas.DaskMatrix
import Verif.Props.Cfm
import Verif.Props.Dask

/-! # C80: the feature matrix of a Dask entity set -/
namespace FT
open Spec

theorem timed_flatMap (cut : List CutRow) (F : Val → Int → List Val → List (List Val)) :
    ((timed cut).flatMap fun r => F r.id r.time r.pass) =
      cut.flatMap fun r => match r.time with
        | some t => F r.id t r.pass
        | none => [] := by
  induction cut with
  | nil => rfl
  | cons r cut ih =>
    rw [List.flatMap_cons, ← ih]
    unfold timed
    cases h : r.time with
    | none => simp [h]
    | some t => simp [h]

/-- C80. A cutoff table: the matrix has the columns of the features, the index of the entity and the passed columns, and, in some
order, for every row of the table whose instance is visible at its time one row with the values of the features at this time, the id
and the passed cells. Other rows give nothing, or, if columns are passed, a row without values. The chunk size does not matter. -/
theorem C80_table_partial (D : DaskChoice) (F : FairChoice D) (a : CfmArgs) (f0 : Feat) (fs : List Feat) (hf : a.features = f0 :: fs)
    (passCols : List String) (cut : List CutRow) (hcut : a.cutoff = .table passCols cut) (happ : a.approximate = none)
    (hw : a.env.window = none) (hexec : a.exec = .serial) (hsize : SizeOk a.chunkSize) (hsome : ∃ r ∈ cut, r.time ≠ none)
    (hdist : (cut.map fun r => (r.id, r.time)).Nodup) (hids : ∀ r ∈ cut, r.id ≠ .null) (hlen : ∀ r ∈ cut, r.pass.length = passCols.length)
    (hcols : ((a.features.flatMap Feat.names) ++ [indexOf a.env f0.entity] ++ passCols).Nodup)
    (htime : passCols ≠ [] → "time" ∉ (a.features.flatMap Feat.names) ++ [indexOf a.env f0.entity] ++ passCols)
    (R : ∀ r ∈ cut, ∀ t, r.time = some t → RegularAt a.env a.features f0.entity t)
    (hdask : ∀ t ids f, NeededBy a.features f → DaskFeature (D.arrange t ids) f) :
    ∃ rows, daskFeatureMatrix D a = .ok { cols := (a.features.flatMap Feat.names) ++ [indexOf a.env f0.entity] ++ passCols, rows := rows } ∧
      rows.Perm (cut.flatMap fun r => match r.time with
        | some t => daskAnswer a.env a.features f0.entity passCols r.id t r.pass
        | none => []) := by
  have hent : (⟨a.env, a.features, passCols, a.idLe⟩ : Call).entity = f0.entity := by simp [Call.entity, hf]
  obtain ⟨r0, hr0, ht0⟩ := hsome
  obtain ⟨t0, ht0⟩ := Option.ne_none_iff_exists'.mp ht0
  have hrows : timed cut ≠ [] := by
    intro he
    have : (⟨r0.id, t0, r0.pass⟩ : TRow) ∈ timed cut := (mem_timed _ _).mpr ⟨r0, hr0, rfl, ht0, rfl⟩
    rw [he] at this; cases this
  have htot : 0 < cut.length := List.length_pos_of_mem hr0
  obtain ⟨ent, hent1, hidx⟩ := (R r0 hr0 t0 ht0).entityOk.get
  have hent2 : a.env.ent f0.entity = some ent := hent1
  have hidx2 : indexOf a.env f0.entity = ent.index := by simp [indexOf, hent2]
  have H : DaskRows D ⟨a.env, a.features, passCols, a.idLe⟩ (indexOf a.env f0.entity) (timed cut) := by
    refine ⟨F, hw, by rw [hent], timed_label_nodup cut hdist, ?_, ?_, hcols, htime, ?_, hdask⟩
    · intro x hx
      obtain ⟨r, hr, h, _, _⟩ := (mem_timed _ _).mp hx
      rw [← h]; exact hids r hr
    · intro x hx
      obtain ⟨r, hr, _, _, h⟩ := (mem_timed _ _).mp hx
      rw [← h]; exact hlen r hr
    · intro x hx
      obtain ⟨r, hr, _, ht, _⟩ := (mem_timed _ _).mp hx
      rw [hent]
      exact R r hr x.time ht
  obtain ⟨size, hs, hs0⟩ := chunkSizeOf_ok a.chunkSize hsize cut.length htot
  obtain ⟨ts, h1, h2, h3⟩ := daskExact_ok size hs0 (timed cut) hrows H
  obtain ⟨h4, h5⟩ := daskConcat_renders h2 h3
  refine ⟨(daskConcat ts).rows, ?_, h5.trans (.of_eq ?_)⟩
  · unfold daskFeatureMatrix
    rw [hf]
    simp only [happ, hw, Option.isSome_none, Bool.false_eq_true, if_false, Env.getEnt, hent2, hcut]
    rw [← hf]
    unfold daskCfmTable
    rw [if_pos ((noDup_iff _).mpr hdist)]
    rw [hidx2] at h1 h4
    simp only [hs, hexec, daskExecute, h1, Except.map]
    rw [hidx2]
    show Except.ok (daskConcat ts) = _
    rw [show daskConcat ts = ⟨(daskConcat ts).cols, (daskConcat ts).rows⟩ from rfl, h4]
    rfl
  · rw [← timed_flatMap]
    unfold rowAnswer
    rw [hent]

/-- C80. A single cutoff time: one row for every visible instance asked for, however often it is asked for. -/
theorem C80_single_partial (D : DaskChoice) (F : FairChoice D) (a : CfmArgs) (f0 : Feat) (fs : List Feat) (hf : a.features = f0 :: fs) (t : Int)
    (hcut : a.cutoff = .single t ∨ (a.cutoff = .missing ∧ a.now = t)) (happ : a.approximate = none)
    (hw : a.env.window = none) (hexec : a.exec = .serial) (hsize : SizeOk a.chunkSize)
    (ids : List Val) (hids : a.instanceIds = some ids) (hnull : ∃ i ∈ ids, i ≠ .null)
    (hcols : ((a.features.flatMap Feat.names) ++ [indexOf a.env f0.entity]).Nodup)
    (R : RegularAt a.env a.features f0.entity t) (hdask : ∀ t ids f, NeededBy a.features f → DaskFeature (D.arrange t ids) f) :
    ∃ rows, daskFeatureMatrix D a = .ok { cols := (a.features.flatMap Feat.names) ++ [indexOf a.env f0.entity], rows := rows } ∧
      rows.Perm ((((worldAt a.env t).ids f0.entity).filter (· ∈ ids)).map fun id =>
        (a.features.flatMap fun f => meaning (worldAt a.env t) f id) ++ [id]) := by
  have hent : (⟨a.env, a.features, [], a.idLe⟩ : Call).entity = f0.entity := by simp [Call.entity, hf]
  obtain ⟨ent, hent1, hidx⟩ := R.entityOk.get
  have hent2 : a.env.ent f0.entity = some ent := hent1
  have hidx2 : indexOf a.env f0.entity = ent.index := by simp [indexOf, hent2]
  have htot : 0 < ids.length := by obtain ⟨i, hi, _⟩ := hnull; exact List.length_pos_of_mem hi
  obtain ⟨size, hs, hs0⟩ := chunkSizeOf_ok a.chunkSize hsize ids.length htot
  obtain ⟨ts, h1, h2, h3⟩ := daskSingle_ok (c := ⟨a.env, a.features, [], a.idLe⟩) (idx := indexOf a.env f0.entity) F hw hnull hcols
    (by rw [hent]; exact R) hdask
  obtain ⟨h4, h5⟩ := daskConcat_renders h2 h3
  refine ⟨(daskConcat ts).rows, ?_, h5.trans (.of_eq ?_)⟩
  · have hgo : daskFeatureMatrix.go D a ent.index t = .ok { cols := (a.features.flatMap Feat.names) ++ [indexOf a.env f0.entity], rows := (daskConcat ts).rows } := by
      unfold daskFeatureMatrix.go daskCfmSingle
      rw [hidx2] at h1 h4
      simp only [hids, hs, hexec, daskExecuteSingle, h1, Except.map]
      rw [hidx2, show daskConcat ts = ⟨(daskConcat ts).cols, (daskConcat ts).rows⟩ from rfl, h4]
      rfl
    unfold daskFeatureMatrix
    rw [hf]
    simp only [happ, hw, Option.isSome_none, Bool.false_eq_true, if_false, Env.getEnt, hent2]
    rcases hcut with h | ⟨h, hn⟩
    · simp only [h]; rw [hgo, hf]
    · simp only [h, hn]; rw [hgo, hf]
  · rw [hent]

/-- C80. Without ids: one row for every instance visible at the time. -/
theorem C80_all_instances_partial (D : DaskChoice) (F : FairChoice D) (a : CfmArgs) (f0 : Feat) (fs : List Feat) (hf : a.features = f0 :: fs) (t : Int)
    (hcut : a.cutoff = .single t ∨ (a.cutoff = .missing ∧ a.now = t)) (happ : a.approximate = none)
    (hw : a.env.window = none) (hexec : a.exec = .serial) (hsize : SizeOk a.chunkSize)
    (hids : a.instanceIds = none) (hne : (worldAt a.env t).ids f0.entity ≠ [])
    (hcols : ((a.features.flatMap Feat.names) ++ [indexOf a.env f0.entity]).Nodup)
    (R : RegularAt a.env a.features f0.entity t) (hdask : ∀ t ids f, NeededBy a.features f → DaskFeature (D.arrange t ids) f) :
    ∃ rows, daskFeatureMatrix D a = .ok { cols := (a.features.flatMap Feat.names) ++ [indexOf a.env f0.entity], rows := rows } ∧
      rows.Perm (((worldAt a.env t).ids f0.entity).map fun id => (a.features.flatMap fun f => meaning (worldAt a.env t) f id) ++ [id]) := by
  have hdef : defaultIds a t = .ok ((worldAt a.env t).ids f0.entity) := defaultIds_ok a f0 fs hf t R
  have hV := visible_ids R.entityOk R.window
  obtain ⟨i, hi⟩ := List.exists_mem_of_ne_nil _ hne
  obtain ⟨rows, h1, h2⟩ := C80_single_partial D F { a with instanceIds := some ((worldAt a.env t).ids f0.entity) } f0 fs hf t hcut happ hw hexec hsize
    ((worldAt a.env t).ids f0.entity) rfl ⟨i, hi, fun h => hV.2 (h ▸ hi)⟩ hcols R hdask
  refine ⟨rows, Eq.trans ?_ h1, h2.trans (.of_eq ?_)⟩
  · clear R hne happ hsize hexec h1 h2 hV hi hdask hw hcols
    obtain ⟨env, features, cutoff, instanceIds, approximate, chunkSize, exec, inIndex, now, idLe⟩ := a
    simp only at hf hcut hids hdef
    subst hf hids
    rcases hcut with rfl | ⟨rfl, rfl⟩ <;>
    · unfold daskFeatureMatrix daskFeatureMatrix.go
      simp only [hdef]
      rfl
  · congr 1
    rw [List.filter_eq_self]
    intro x hx
    simpa using hx

/-- C80. When every row of the cutoff table has a time and its instance is visible then, the matrix is that of the same pandas entity
set, up to the order of the rows, with the ids in a column and without the cutoff times. -/
theorem C80_same_as_pandas_partial (D : DaskChoice) (F : FairChoice D) (a : CfmArgs) (f0 : Feat) (fs : List Feat) (hf : a.features = f0 :: fs)
    (passCols : List String) (cut : List CutRow) (hcut : a.cutoff = .table passCols cut) (happ : a.approximate = none)
    (hw : a.env.window = none) (hexec : a.exec = .serial) (hsize : SizeOk a.chunkSize) (hne : cut ≠ [])
    (hdist : (cut.map fun r => (r.id, r.time)).Nodup) (hlen : ∀ r ∈ cut, r.pass.length = passCols.length)
    (hcols : ((a.features.flatMap Feat.names) ++ [indexOf a.env f0.entity] ++ passCols).Nodup)
    (htime : passCols ≠ [] → "time" ∉ (a.features.flatMap Feat.names) ++ [indexOf a.env f0.entity] ++ passCols)
    (R : ∀ r ∈ cut, ∀ t, r.time = some t → RegularAt a.env a.features f0.entity t)
    (hdask : ∀ t ids f, NeededBy a.features f → DaskFeature (D.arrange t ids) f)
    (hvis : ∀ r ∈ cut, ∃ t, r.time = some t ∧ r.id ∈ (worldAt a.env t).ids f0.entity) :
    ∃ m m' n, calculateFeatureMatrix a = .ok m ∧ daskFeatureMatrix D a = .ok m' ∧ n = (a.features.flatMap Feat.names).length ∧
      m'.cols = m.cols.take n ++ [indexOf a.env f0.entity] ++ m.cols.drop n ∧
      m'.rows.Perm (m.rows.map fun r => r.2.2.take n ++ [r.1] ++ r.2.2.drop n) := by
  have hsome : ∃ r ∈ cut, r.time ≠ none := by
    obtain ⟨r, hr⟩ := List.exists_mem_of_ne_nil _ hne
    obtain ⟨t, ht, _⟩ := hvis r hr
    exact ⟨r, hr, by simp [ht]⟩
  have hids : ∀ r ∈ cut, r.id ≠ .null := by
    intro r hr h
    obtain ⟨t, ht, hv⟩ := hvis r hr
    exact (visible_ids (R r hr t ht).entityOk (R r hr t ht).window).2 (h ▸ hv)
  have hpass : passCols.Nodup ∧ ∀ n ∈ passCols, ∀ f ∈ a.features, n ∉ f.names := by
    refine ⟨(List.nodup_append.mp hcols).2.1, fun n hn f hf' hm => ?_⟩
    exact (List.nodup_append.mp hcols).2.2 n (List.mem_append_left _ (List.mem_flatMap.mpr ⟨f, hf', hm⟩)) n hn rfl
  have h1 := C33_table_partial a f0 fs hf passCols cut hcut happ hsome hdist hlen hpass R hsize (by rw [hexec]; trivial)
  obtain ⟨rows, h2, h3⟩ := C80_table_partial D F a f0 fs hf passCols cut hcut happ hw hexec hsize hsome hdist hids hlen hcols htime R hdask
  refine ⟨_, _, _, h1, h2, rfl, ?_, h3.trans (.of_eq ?_)⟩
  · simp
  · rw [List.map_map, ← flatMap_single]
    apply flatMap_congr'
    intro r hr
    obtain ⟨t, ht, hv⟩ := hvis r hr
    have hlen' : (a.features.flatMap Feat.names).length = (a.features.flatMap fun f => meaning (worldAt a.env t) f r.id).length := by
      rw [List.length_flatMap, List.length_flatMap]
      congr 1
      apply List.map_congr_left
      intro f hf'
      exact (meaning_length (R r hr t ht) f hf' r.id hv).symm
    simp only [ht, Function.comp, daskAnswer, valuesAt, if_pos hv]
    rw [hlen', List.take_left, List.drop_left]

/-- C80. What is refused on Dask: no features, `approximate`, a training window, and a cutoff table with a row twice or without times. -/
theorem C80_refused (D : DaskChoice) (a : CfmArgs) :
    (a.features = [] → daskFeatureMatrix D a = .error .assertionError) ∧
    (a.features ≠ [] → a.approximate ≠ none ∨ a.env.window ≠ none → daskFeatureMatrix D a = .error .valueError) ∧
    (∀ f0 fs passCols cut, a.features = f0 :: fs → a.approximate = none → a.env.window = none → (a.env.ent f0.entity).isSome →
      a.cutoff = .table passCols cut → (¬ (cut.map fun r => (r.id, r.time)).Nodup → daskFeatureMatrix D a = .error .assertionError) ∧
        ((∀ r ∈ cut, r.time = none) → ∃ err, daskFeatureMatrix D a = .error err)) := by
  refine ⟨fun h => ?_, fun h h' => ?_, fun f0 fs passCols cut hf happ hw hent hcut => ?_⟩
  · unfold daskFeatureMatrix; rw [h]
  · obtain ⟨f, fs, hf⟩ := List.exists_cons_of_ne_nil h
    unfold daskFeatureMatrix
    rw [hf]
    simp only
    cases ha : a.approximate with
    | some _ => simp
    | none =>
      rcases h' with h' | h'
      · exact absurd ha h'
      · obtain ⟨w, hw⟩ := Option.ne_none_iff_exists'.mp h'
        simp [hw]
  · obtain ⟨ent, hent⟩ := Option.isSome_iff_exists.mp hent
    have hstep : daskFeatureMatrix D a = daskCfmTable D a ent.index passCols cut := by
      unfold daskFeatureMatrix
      rw [hf]
      simp [happ, hw, Env.getEnt, hent, hcut]
    rw [hstep]
    refine ⟨fun hd => ?_, fun hnone => ?_⟩
    · unfold daskCfmTable
      rw [if_neg (fun h => hd ((noDup_iff _).mp h))]
    · have hnil : timed cut = [] := by
        rw [List.eq_nil_iff_forall_not_mem]
        intro x hx
        obtain ⟨r, hr, _, h, _⟩ := (mem_timed _ _).mp hx
        rw [hnone r hr] at h; cases h
      unfold daskCfmTable
      split
      · split
        · exact ⟨_, rfl⟩
        · rw [hnil]
          unfold daskExecute
          split
          · exact ⟨_, rfl⟩
          · split
            · exact ⟨_, rfl⟩
            · split
              · exact ⟨_, rfl⟩
              · rename_i chunks hc
                have : chunks = [] := by
                  rw [groupByKey_nil] at hc
                  cases hc; rfl
                rw [this]
                exact ⟨_, rfl⟩
      · exact ⟨_, rfl⟩

/-- C80: nor does a call on Dask succeed with a chunk size that is not positive. -/
theorem C80_chunk_size (D : DaskChoice) (a : CfmArgs) (s : Rat) (hs : a.chunkSize = some s) (h : s ≤ 0) :
    ∃ err, daskFeatureMatrix D a = .error err := by
  have hc : ∀ n, chunkSizeOf a.chunkSize n = .error .assertionError := by
    intro n
    rw [hs]
    have : s.num ≤ 0 := by
      refine Int.not_lt.mp fun hn => ?_
      rw [Rat.le_antisymm h (Rat.num_nonneg.mp (Int.le_of_lt hn))] at hn
      exact absurd hn (by decide)
    simp [chunkSizeOf, handleChunkSize, this, Except.map]
  have hsingle : ∀ idx t ids, ∃ err, daskCfmSingle D a idx t ids = .error err := by
    intro idx t ids
    unfold daskCfmSingle
    simp only [hc]; exact ⟨_, rfl⟩
  have hgo : ∀ idx t, ∃ err, daskFeatureMatrix.go D a idx t = .error err := by
    intro idx t
    unfold daskFeatureMatrix.go
    split
    · exact hsingle _ _ _
    · split
      · exact ⟨_, rfl⟩
      · exact hsingle _ _ _
  unfold daskFeatureMatrix
  split
  · exact ⟨_, rfl⟩
  · split
    · exact ⟨_, rfl⟩
    · split
      · exact ⟨_, rfl⟩
      · split
        · exact ⟨_, rfl⟩
        · split
          · unfold daskCfmTable
            split
            · simp only [hc]; exact ⟨_, rfl⟩
            · exact ⟨_, rfl⟩
          · exact hgo _ _
          · exact hgo _ _

theorem daskGather_error {α : Type} (f : List Table → α) (order : Nat → List Nat) (results : List (Except PyErr (List Table))) :
    ∃ err, (daskGather order results).map f = .error err := by
  unfold daskGather
  split
  · exact ⟨_, rfl⟩
  · split <;> exact ⟨_, rfl⟩

/-- C80 fails with several workers: no call with `n_jobs` other than 1 succeeds on Dask, whatever its arguments. -/
theorem C80_parallel_violated (D : DaskChoice) (a : CfmArgs) (workers : Nat) (order : Nat → List Nat) (hexec : a.exec = .parallel workers order) :
    ∃ err, daskFeatureMatrix D a = .error err := by
  have hs : ∀ idx t ids, ∃ err, daskCfmSingle D a idx t ids = .error err := by
    intro idx t ids
    unfold daskCfmSingle daskExecuteSingle
    rw [hexec]
    split
    · exact ⟨_, rfl⟩
    · simp only
      split
      · exact ⟨_, rfl⟩
      · split
        · exact ⟨_, rfl⟩
        · exact daskGather_error _ _ _
  have hgo : ∀ idx t, ∃ err, daskFeatureMatrix.go D a idx t = .error err := by
    intro idx t
    unfold daskFeatureMatrix.go
    split
    · exact hs _ _ _
    · split
      · exact ⟨_, rfl⟩
      · exact hs _ _ _
  unfold daskFeatureMatrix
  split
  · exact ⟨_, rfl⟩
  · split
    · exact ⟨_, rfl⟩
    · split
      · exact ⟨_, rfl⟩
      · split
        · exact ⟨_, rfl⟩
        · split
          · rename_i passCols cut _
            unfold daskCfmTable daskExecute
            rw [hexec]
            split
            · split
              · exact ⟨_, rfl⟩
              · simp only
                split
                · exact ⟨_, rfl⟩
                · split
                  · exact ⟨_, rfl⟩
                  · exact daskGather_error _ _ _
            · exact ⟨_, rfl⟩
          · exact hgo _ _
          · exact hgo _ _

/-! ## An example -/
namespace DaskMatrixExample
open CalcExample

/-- Everything is turned round. -/
def turned : DaskChoice := { arrange := fun _ _ => DaskExample.cut, order := fun _ _ _ rows => rows.reverse }

theorem fairTurned : FairChoice turned := fun _ _ => ⟨DaskExample.fair, fun _ rows => List.reverse_perm rows⟩

theorem daskTargets : ∀ f, NeededBy targets f → DaskFeature DaskExample.cut f := by
  intro f hf
  rcases needed hf with rfl | rfl | rfl | rfl
  · intro b hb
    have : b = total := by simpa [lookup, Feat.bases] using hb
    subst this; decide
  · exact rfl
  · refine ⟨rfl, ⟨amount, rfl, ?_⟩, rfl, ?_, _, rfl, DaskExample.same⟩
    · intro w hw; cases hw
    · intro times h; cases h
  · trivial

/-- The call of `CfmExample` in this process, with chunks of two rows. -/
def call : CfmArgs := { CfmExample.call with exec := .serial }

end DaskMatrixExample
open CalcExample DaskMatrixExample

/-- The hypotheses of the theorems are met: four rows at three times with a label, one of an instance not visible yet. -/
example := C80_table_partial turned fairTurned DaskMatrixExample.call _ _ rfl ["label"] CfmExample.cut rfl rfl rfl rfl CfmExample.sizeOk
  ⟨_, by simp [CfmExample.cut]; exact .inl rfl, by simp⟩ (by decide) (by decide) (by decide) (by decide) (by decide)
  (fun _ _ t _ => CfmExample.regularAt t) (fun _ _ => daskTargets)
example : daskFeatureMatrix turned DaskMatrixExample.call = .ok {
    cols := ["customers.SUM(sessions.amount)", "-(amount)", "sid", "label"],
    rows := [[.num 5, .num (-5), .num 10, .num 0], [.null, .null, .num 13, .num 3], [.num 9, .num (-9), .num 12, .num 2],
             [.num 109, .num (-9), .num 12, .num 1]] } := by
  decide +kernel
example := C80_single_partial turned fairTurned { DaskMatrixExample.call with cutoff := .single 2, instanceIds := some [.num 12, .num 99, .num 12] } _ _ rfl 2
  (.inl rfl) rfl rfl rfl CfmExample.sizeOk _ rfl ⟨.num 12, by simp, by simp⟩ (by decide) (CfmExample.regularAt 2) (fun _ _ => daskTargets)
example := C80_all_instances_partial turned fairTurned { DaskMatrixExample.call with cutoff := .single 2 } _ _ rfl 2
  (.inl rfl) rfl rfl rfl CfmExample.sizeOk rfl (by decide) (by decide) (CfmExample.regularAt 2) (fun _ _ => daskTargets)
example := C80_same_as_pandas_partial turned fairTurned { DaskMatrixExample.call with cutoff := .table ["label"] (CfmExample.cut.take 3) } _ _ rfl ["label"]
  (CfmExample.cut.take 3) rfl rfl rfl rfl CfmExample.sizeOk (by decide) (by decide) (by decide) (by decide) (by decide)
  (fun _ _ t _ => CfmExample.regularAt t) (fun _ _ => daskTargets) (by decide +kernel)

/-- C80 fails for instances not visible at their time: pandas gives the defaults, Dask nothing or missing values. -/
theorem C80_unknown_violated :
    let counted := { DaskMatrixExample.call with features := [total], cutoff := .table [] [⟨.num 99, some 2, []⟩, ⟨.num 1, some 2, []⟩] }
    let labelled := { DaskMatrixExample.call with features := [total], cutoff := .table ["label"] [⟨.num 99, some 2, [.num 7]⟩] }
    calculateFeatureMatrix counted = .ok { cols := ["SUM(sessions.amount)"], rows := [(.num 99, some 2, [.num 0]), (.num 1, some 2, [.num 12])] } ∧
    daskFeatureMatrix turned counted = .ok { cols := ["SUM(sessions.amount)", "id"], rows := [[.num 12, .num 1]] } ∧
    calculateFeatureMatrix labelled = .ok { cols := ["SUM(sessions.amount)", "label"], rows := [(.num 99, some 2, [.num 0, .num 7])] } ∧
    daskFeatureMatrix turned labelled = .ok { cols := ["SUM(sessions.amount)", "id", "label"], rows := [[.null, .num 99, .num 7]] } := by
  refine ⟨?_, ?_, ?_, ?_⟩ <;> decide +kernel

/-- C80: two cutoff times of one instance cannot be told apart on Dask, and `cutoff_time_in_index` changes nothing. -/
theorem C80_time_lost :
    (∀ D a b, daskFeatureMatrix D { a with inIndex := b } = daskFeatureMatrix D a) ∧
    (∃ m, daskFeatureMatrix turned { DaskMatrixExample.call with cutoff := .table [] [⟨.num 12, some 2, []⟩, ⟨.num 12, some 5, []⟩] } = .ok m ∧
      m.rows = [[.num 9, .num (-9), .num 12], [.num 9, .num (-9), .num 12]]) := by
  refine ⟨fun D a b => ?_, ⟨_, rfl, by decide +kernel⟩⟩
  rfl

/-- C80 fails when a passed column has the name of a feature: the merge compares its cells too, and the row falls into two. -/
theorem C80_pass_name_violated :
    daskFeatureMatrix turned { DaskMatrixExample.call with cutoff := .table ["-(amount)"] [⟨.num 10, some 0, [.num 77]⟩] } =
      .ok { cols := ["customers.SUM(sessions.amount)", "-(amount)", "sid"],
            rows := [[.null, .num 77, .num 10], [.num 5, .num (-5), .num 10]] } := by
  decide +kernel

/-- C80 fails for a feature called `time` when columns are passed: it is missing from the matrix. -/
theorem C80_time_column_violated :
    let time : Feat := .mk { entity := "sessions", name := "time", names := ["time"], dflt := .null, kind := .identity "time" } [] []
    daskFeatureMatrix turned { DaskMatrixExample.call with features := [time], cutoff := .table ["label"] [⟨.num 11, some 4, [.num 7]⟩] } =
      .ok { cols := ["sid", "label"], rows := [[.num 11, .num 7]] } ∧
    daskFeatureMatrix turned { DaskMatrixExample.call with features := [time], cutoff := .table [] [⟨.num 11, some 4, []⟩] } =
      .ok { cols := ["time", "sid"], rows := [[.num 1, .num 11]] } := by
  constructor <;> decide +kernel

/-- C80 fails with several workers also where everything else is fine: the parts cannot be put together. -/
theorem C80_workers_violated : daskFeatureMatrix turned CfmExample.call = .error .typeError := by decide +kernel

end FT
