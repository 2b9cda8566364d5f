import Verif.Lemmas.CfmApprox
import Verif.Props.Cfm
import Verif.Props.Util
import Verif.Props.CfmLeak
import Verif.Lemmas.CfmApproxExample
/-!
# C34: the feature matrix with `approximate`

`Spec.lookedUp env features b` (in `Spec/CfmApprox.lean`) tells which features are looked up and that their values are those by
definition at time `b`; `Spec.answerAt` (in `Spec/Approx.lean`) is the row of an instance when some features are looked up.
-/
namespace FT
open Spec

theorem binRows_ok (ap : Approx) (bin : Int → Int) (hb : Bins ap bin) (rows : List TRow) :
    binRows ap rows = .ok (rows.map fun r => (bin r.time, r)) := by
  cases ap with
  | int n =>
    obtain ⟨hn, hb⟩ := hb
    simp only [binRows, if_neg hn, hb]
  | delta td =>
    obtain ⟨u, v, ns, h1, h2, h3, hb⟩ := hb
    have hns : 0 < ns := by
      unfold Spec.nsOf at h2
      split at h2 <;> simp at h2 <;> omega
    simp only [binRows, datetimeRound_single _ td u v ns h1 h2 h3, refill_map]
    congr 1
    apply List.map_congr_left
    intro r _
    rw [isFloor_unique (isFloor_div (v * ns) r.time (Int.mul_pos h3 hns)) (hb r.time)]

/-- Both cases of the theorem below. -/
theorem cfm_approx (a : CfmArgs) (f0 : Feat) (fs : List Feat) (hf : a.features = f0 :: fs) (passCols : List String) (cut : List CutRow)
    (hcut : a.cutoff = .table passCols cut) (ap : Approx) (happ : a.approximate = some ap) (bin : Int → Int) (hbin : Bins ap bin)
    (hsome : ∃ r ∈ cut, r.time ≠ none)
    (hdist : (cut.map fun r => (r.id, r.time)).Nodup) (hlen : ∀ r ∈ cut, r.pass.length = passCols.length)
    (hpass : (∀ n ∈ passCols, ∀ f ∈ a.features, n ∉ f.names) ∧ "target_time" ∉ passCols ∧ "_original_time" ∉ passCols)
    (rest : Int → Env) (hrest : (OnlyApproximated a.features ∧ rest = fun _ => { a.env with timeLast := a.now, window := none }) ∨
      (¬ OnlyApproximated a.features ∧ rest = fun t => { a.env with timeLast := t }))
    (R : ∀ r ∈ cut, ∀ t, r.time = some t → ApproxOk a.env a.features f0.entity (rest t) (bin t))
    (hunknown : OnlyApproximated a.features → ∀ r ∈ cut, ∀ r' ∈ cut, ∀ t t', r.time = some t → r'.time = some t' → bin t = bin t' →
      r.id = r'.id → r.id ∉ (worldOf (rest a.now)).ids f0.entity → r = r')
    (hsize : SizeOk a.chunkSize) (hexec : Fair a.exec) :
    calculateFeatureMatrix a = .ok {
      cols := (a.features.flatMap Feat.names) ++ passCols,
      rows := cut.map fun r => (r.id, if a.inIndex then r.time else none,
        match r.time with
        | some t => answerAt (worldOf (rest t)) (lookedUp a.env a.features (bin t)) f0.entity a.features r.id ++ r.pass
        | none => ((a.features.flatMap Feat.names) ++ passCols).map fun _ => .null) } := by
  have hent : (⟨a.env, a.features, passCols, a.idLe⟩ : Call).entity = f0.entity := by simp [Call.entity, hf]
  obtain ⟨r0, hr0, ht0⟩ := hsome
  obtain ⟨t0, ht0⟩ := Option.ne_none_iff_exists'.mp ht0
  have hrows : timed cut ≠ [] := by
    intro he
    have : (⟨r0.id, t0, r0.pass⟩ : TRow) ∈ timed cut := (mem_timed _ _).mpr ⟨r0, hr0, rfl, ht0, rfl⟩
    rw [he] at this; cases this
  have htot : 0 < cut.length := List.length_pos_of_mem hr0
  have hfresh : ∀ n ∈ passCols, n ∉ a.features.flatMap Feat.names := by
    intro n hn hm
    obtain ⟨f, hf', hn'⟩ := List.mem_flatMap.mp hm
    exact hpass.1 n hn f hf' hn'
  have htog := noUnapproximatedAggs_iff (R r0 hr0 t0 ht0).remaining
  have hro : ∀ t, restOf ⟨a.env, a.features, passCols, a.idLe⟩ a.now t = rest t := by
    intro t
    unfold restOf
    rcases hrest with ⟨h, rfl⟩ | ⟨h, rfl⟩
    · rw [if_pos (htog.mpr h)]; rfl
    · rw [if_neg (fun h' => h (htog.mp h'))]; rfl
  obtain ⟨size, hs, hs0⟩ := chunkSizeOf_ok a.chunkSize hsize cut.length htot
  have hlab := timed_label_nodup cut hdist
  have hsnd : ((timed cut).map fun r => (bin r.time, r)).map Prod.snd = timed cut := by
    rw [List.map_map]; exact List.map_id' _
  obtain ⟨out, ho, hp⟩ := execute_ok a.exec hexec size hs0 cut.length htot Prod.fst ((timed cut).map fun r => (bin r.time, r)) (by simpa using hrows)
    (calculateBinned ⟨a.env, a.features, passCols, a.idLe⟩ a.now)
    (fun x => approxRow ⟨a.env, a.features, passCols, a.idLe⟩ f0.entity (rest x.2.time) x.1 x.2) (by
      intro size' rows' hs' hsub hne
      have hsub' : (rows'.map Prod.snd).Sublist (timed cut) := by
        have := hsub.map Prod.snd
        rwa [hsnd] at this
      have hbinOf : ∀ x ∈ rows', x.1 = bin x.2.time ∧ x.2 ∈ timed cut := by
        intro x hx
        obtain ⟨r, hr, rfl⟩ := List.mem_map.mp (hsub.subset hx)
        exact ⟨rfl, hr⟩
      obtain ⟨out, ho, hp⟩ := calculateBinned_ok ⟨a.env, a.features, passCols, a.idLe⟩ f0.entity hent a.now size' hs' rows' hne (by
          intro x hx
          obtain ⟨h1, h2⟩ := hbinOf x hx
          obtain ⟨r, hr, _, ht, _⟩ := (mem_timed _ _).mp h2
          rw [hro, h1]
          exact R r hr _ ht) (by
          refine ⟨?_, hfresh, hpass.2.1, hpass.2.2⟩
          intro x hx
          obtain ⟨r, hr, _, _, h⟩ := (mem_timed _ _).mp (hsub'.subset hx)
          rw [← h]; exact hlen r hr) (hlab.sublist (hsub'.map _)) (by
          intro hn b
          have hO := htog.mp hn
          have hw : (⟨a.env, a.features, passCols, a.idLe⟩ : Call).at a.now none = rest a.now := by
            have := hro a.now
            rwa [restOf, if_pos hn] at this
          rw [hw]
          rw [List.filter_map]
          have hnd : rows'.Nodup := by
            have h1 : (rows'.map fun x => TRow.label x.2).Nodup := by
              have := hlab.sublist (hsub'.map TRow.label)
              rwa [List.map_map] at this
            exact List.Pairwise.of_map _ (fun _ _ h h' => h (by rw [h'])) h1
          refine List.pairwise_map.mpr ?_
          refine List.Pairwise.imp_of_mem ?_ ((hnd.sublist List.filter_sublist).sublist List.filter_sublist)
          intro x y hx hy hne he
          apply hne
          simp only [List.mem_filter, Function.comp, decide_eq_true_eq] at hx hy
          obtain ⟨⟨hx, hxb⟩, hxv⟩ := hx
          obtain ⟨⟨hy, hyb⟩, _⟩ := hy
          obtain ⟨hx1, hx2⟩ := hbinOf x hx
          obtain ⟨hy1, hy2⟩ := hbinOf y hy
          obtain ⟨r, hr, hri, hrt, hrp⟩ := (mem_timed _ _).mp hx2
          obtain ⟨r', hr', hri', hrt', hrp'⟩ := (mem_timed _ _).mp hy2
          have hrr := hunknown hO r hr r' hr' _ _ hrt hrt' (by rw [← hx1, ← hy1, hxb, hyb]) (by rw [hri, hri', he]) (by rw [hri]; exact hxv)
          subst hrr
          have ht : x.2.time = y.2.time := by rw [hrt] at hrt'; exact Option.some.inj hrt'
          have h2 : x.2 = y.2 := by
            obtain ⟨xb, xi, xt, xp⟩ := x
            obtain ⟨yb, yi, yt, yp⟩ := y
            simp only at he ht hrp hrp' ⊢
            rw [he, ht, ← hrp, ← hrp']
          exact Prod.ext (by rw [hxb, hyb]) h2)
      refine ⟨out, ho, hp.trans (.of_eq ?_)⟩
      apply List.map_congr_left
      intro x _
      rw [hro])
  have hre := reindexTable_ok ((a.features.flatMap Feat.names) ++ passCols) cut hdist
    (fun r => answerAt (worldOf (rest r.time)) (lookedUp a.env a.features (bin r.time)) f0.entity a.features r.id ++ r.pass) out (by
      refine hp.trans (.of_eq ?_)
      rw [List.map_map]
      rfl)
  unfold calculateFeatureMatrix
  rw [if_neg (by simp [hf])]
  simp only [hcut, cfmTable, if_pos ((noDup_iff _).mpr hdist), happ, binRows_ok ap bin hbin, hs, ho]
  have hcols : (⟨a.env, a.features, passCols, a.idLe⟩ : Call).approxCols = (a.features.flatMap Feat.names) ++ passCols := by
    simp only [Call.approxCols, Call.featCols]
    rw [List.filter_eq_self.mpr]
    intro n hn
    simp only [decide_eq_true_eq]
    intro h; exact hfresh n h hn
  rw [hcols, hre]
  simp only [Except.map, dropTime]
  cases a.inIndex
  · simp only [Bool.false_eq_true, if_false, List.map_map, Function.comp_def]
    rfl
  · rfl

/-- C34. A cutoff table with `approximate`, where some aggregation is not approximated. The matrix has one row for every row of
the table, in the order of the table. The approximated features are looked up: they have the values by definition at the bin of
the row's cutoff, which is not after the cutoff. Everything else is computed by definition at the cutoff itself. This holds for
every chunk size, in this process or with any number of workers completing in any order, and whatever other rows are in the
same bin. -/
theorem C34_values_partial (a : CfmArgs) (f0 : Feat) (fs : List Feat) (hf : a.features = f0 :: fs) (passCols : List String) (cut : List CutRow)
    (hcut : a.cutoff = .table passCols cut) (ap : Approx) (happ : a.approximate = some ap) (bin : Int → Int) (hbin : Bins ap bin)
    (hsome : ∃ r ∈ cut, r.time ≠ none)
    (hdist : (cut.map fun r => (r.id, r.time)).Nodup) (hlen : ∀ r ∈ cut, r.pass.length = passCols.length)
    (hpass : (∀ n ∈ passCols, ∀ f ∈ a.features, n ∉ f.names) ∧ "target_time" ∉ passCols ∧ "_original_time" ∉ passCols)
    (hagg : ¬ OnlyApproximated a.features)
    (R : ∀ r ∈ cut, ∀ t, r.time = some t → ApproxOk a.env a.features f0.entity { a.env with timeLast := t } (bin t))
    (hsize : SizeOk a.chunkSize) (hexec : Fair a.exec) :
    calculateFeatureMatrix a = .ok {
      cols := (a.features.flatMap Feat.names) ++ passCols,
      rows := cut.map fun r => (r.id, if a.inIndex then r.time else none,
        match r.time with
        | some t => answerAt (worldAt a.env t) (lookedUp a.env a.features (bin t)) f0.entity a.features r.id ++ r.pass
        | none => ((a.features.flatMap Feat.names) ++ passCols).map fun _ => .null) } ∧ ∀ t, bin t ≤ t := by
  refine ⟨cfm_approx a f0 fs hf passCols cut hcut ap happ bin hbin hsome hdist hlen hpass (fun t => { a.env with timeLast := t }) (.inr ⟨hagg, rfl⟩) R
    (fun h => absurd h hagg) hsize hexec, ?_⟩
  intro t
  cases ap with
  | int n => rw [hbin.2 t]; exact Int.le_refl _
  | delta td =>
    obtain ⟨_, _, _, _, _, _, h⟩ := hbin
    exact (h t).2.1

/-- C34. When every aggregation is approximated, everything else is computed with all data there is now, without a training
window: the cutoff of a row counts for the choice of its bin only. An instance that is not in the data may have only one row
in a bin. -/
theorem C34_values_now_partial (a : CfmArgs) (f0 : Feat) (fs : List Feat) (hf : a.features = f0 :: fs) (passCols : List String) (cut : List CutRow)
    (hcut : a.cutoff = .table passCols cut) (ap : Approx) (happ : a.approximate = some ap) (bin : Int → Int) (hbin : Bins ap bin)
    (hsome : ∃ r ∈ cut, r.time ≠ none)
    (hdist : (cut.map fun r => (r.id, r.time)).Nodup) (hlen : ∀ r ∈ cut, r.pass.length = passCols.length)
    (hpass : (∀ n ∈ passCols, ∀ f ∈ a.features, n ∉ f.names) ∧ "target_time" ∉ passCols ∧ "_original_time" ∉ passCols)
    (hagg : OnlyApproximated a.features)
    (R : ∀ r ∈ cut, ∀ t, r.time = some t → ApproxOk a.env a.features f0.entity { a.env with timeLast := a.now, window := none } (bin t))
    (hunknown : ∀ r ∈ cut, ∀ r' ∈ cut, ∀ t t', r.time = some t → r'.time = some t' → bin t = bin t' → r.id = r'.id →
      r.id ∉ (worldOf { a.env with timeLast := a.now, window := none }).ids f0.entity → r = r')
    (hsize : SizeOk a.chunkSize) (hexec : Fair a.exec) :
    calculateFeatureMatrix a = .ok {
      cols := (a.features.flatMap Feat.names) ++ passCols,
      rows := cut.map fun r => (r.id, if a.inIndex then r.time else none,
        match r.time with
        | some t => answerAt (worldOf { a.env with timeLast := a.now, window := none }) (lookedUp a.env a.features (bin t)) f0.entity a.features r.id ++ r.pass
        | none => ((a.features.flatMap Feat.names) ++ passCols).map fun _ => .null) } :=
  cfm_approx a f0 fs hf passCols cut hcut ap happ bin hbin hsome hdist hlen hpass _ (.inl ⟨hagg, rfl⟩) R (fun _ => hunknown) hsize hexec

/-- C34. What a requested direct feature of an approximated aggregation is, in a row of the bin `b`: the parent is looked up in
the data of the row (`w`), the value of the aggregation is that by definition at `b`. -/
theorem C34_direct_value {env rest : Env} {features : List Feat} {e : String} {b : Int} (ok : ApproxOk env features e rest b)
    (f : Feat) (hf : f ∈ features) (r : Relationship) (hr : f.kind = .direct r) (g : Feat) (hg : f.bases = [g])
    (ha : Approximated features [(true, r)] g) (w : World) (id : Val) :
    meaningAt w (lookedUp env features b) [] f id =
      if w.cell f.entity id r.childV ∈ w.ids r.parentE then
        (valuesAt env [g] r.parentE b (w.cell f.entity id r.childV)).map (orElse f.dflt)
      else f.names.map fun _ => f.dflt := by
  have R := ok.remaining
  have hnot : f.uniqueName ∉ (lookedUp env features b).names [] := by rw [R.targetsComputed]; simp
  rw [meaningAt_computed w _ (R.noSlice f hf) hnot, path_direct hr, hg]
  obtain ⟨_, _, b', hb', he⟩ := direct_wf (R.wf f ⟨f, hf, .inl rfl⟩) hr
  rw [hg] at hb'; cases hb'
  have hk : ∀ n, g.kind ≠ .slice n := by
    obtain ⟨_, _, _, _, _, _, _, _, hk⟩ := ha
    intro n h; rw [hk] at h; cases h
  have hgiven : g.uniqueName ∈ (lookedUp env features b).names ([] ++ [(true, r)]) := (lookedUp_names R _ _).mpr ⟨g, ha, rfl⟩
  simp only [List.map_cons, List.map_nil]
  rw [meaningAt_given w _ hk hgiven]
  unfold meaningStep
  have hr' : f.info.kind = .direct r := by rw [← hr]; rfl
  simp only [hr', lookedUp, he]
  rfl

/-- C34. At the time of a bin nothing is approximate: a row whose cutoff is its bin has the values by definition at its cutoff
(those that C33 gives without `approximate`), when some aggregation is not approximated. -/
theorem C34_exact_on_bins {env : Env} {features : List Feat} {e : String} {t : Int}
    (ok : ApproxOk env features e { env with timeLast := t } t) (id : Val) :
    answerAt (worldAt env t) (lookedUp env features t) e features id = valuesAt env features e t id :=
  answerAt_exact ok.remaining id

/-- C32 with `approximate`: the chunk size and the way of executing do not matter. -/
theorem C32_approximate_partial (a : CfmArgs) (f0 : Feat) (fs : List Feat) (hf : a.features = f0 :: fs) (passCols : List String) (cut : List CutRow)
    (hcut : a.cutoff = .table passCols cut) (ap : Approx) (happ : a.approximate = some ap) (bin : Int → Int) (hbin : Bins ap bin)
    (hsome : ∃ r ∈ cut, r.time ≠ none)
    (hdist : (cut.map fun r => (r.id, r.time)).Nodup) (hlen : ∀ r ∈ cut, r.pass.length = passCols.length)
    (hpass : (∀ n ∈ passCols, ∀ f ∈ a.features, n ∉ f.names) ∧ "target_time" ∉ passCols ∧ "_original_time" ∉ passCols)
    (rest : Int → Env) (hrest : (OnlyApproximated a.features ∧ rest = fun _ => { a.env with timeLast := a.now, window := none }) ∨
      (¬ OnlyApproximated a.features ∧ rest = fun t => { a.env with timeLast := t }))
    (R : ∀ r ∈ cut, ∀ t, r.time = some t → ApproxOk a.env a.features f0.entity (rest t) (bin t))
    (hunknown : OnlyApproximated a.features → ∀ r ∈ cut, ∀ r' ∈ cut, ∀ t t', r.time = some t → r'.time = some t' → bin t = bin t' →
      r.id = r'.id → r.id ∉ (worldOf (rest a.now)).ids f0.entity → r = r')
    (hsize : SizeOk a.chunkSize) (hexec : Fair a.exec) (size' : Option Rat) (hsize' : SizeOk size') (exec' : Exec) (hexec' : Fair exec') :
    calculateFeatureMatrix { a with chunkSize := size', exec := exec' } = calculateFeatureMatrix a := by
  rw [cfm_approx a f0 fs hf passCols cut hcut ap happ bin hbin hsome hdist hlen hpass rest hrest R hunknown hsize hexec]
  exact cfm_approx { a with chunkSize := size', exec := exec' } f0 fs hf passCols cut hcut ap happ bin hbin hsome hdist hlen hpass rest hrest R hunknown hsize' hexec'

/-- The data shown is the same. -/
theorem world_same {env : Env} {ent' : String → Option Ent} (hs : ∀ x, SameAt env (env.ent x) (ent' x))
    (ha : ∀ x ent, env.ent x = some ent → SecondaryApart ent) : worldOf { env with ent := ent' } = worldOf env := by
  have hidx : ∀ x, indexOf { env with ent := ent' } x = indexOf env x := by
    intro x
    rcases hs x with ⟨h1, h2⟩ | ⟨a, b, h1, h2, h⟩
    · simp [indexOf, h1, h2]
    · simp [indexOf, h1, h2, h.index]
  have hrows : ∀ x, visRows { env with ent := ent' } x = visRows env x := by
    intro x
    unfold visRows
    rcases hs x with ⟨h1, h2⟩ | ⟨a, b, h1, h2, h⟩
    · simp only [h1, h2]
    · simp only [h1, h2]
      rw [query_same h (ha x a h1) none none none (fun h => absurd rfl h)]
  have hti : ∀ x, (ent' x).bind Ent.timeIndex = (env.ent x).bind Ent.timeIndex := by
    intro x
    rcases hs x with ⟨h1, h2⟩ | ⟨a, b, h1, h2, h⟩
    · simp [h1, h2]
    · simp [h1, h2, h.timeIndex]
  unfold worldOf
  simp only [hidx, hrows, hti]

/-- C60 with `approximate`, when some aggregation is not approximated. If two data sets show the same at time `t` and at the bin of
`t`, every row of the matrix with cutoff `t` is the same for both. -/
theorem C60_approximate_partial (a : CfmArgs) (f0 : Feat) (fs : List Feat) (hf : a.features = f0 :: fs) (passCols : List String) (cut : List CutRow)
    (hcut : a.cutoff = .table passCols cut) (ap : Approx) (happ : a.approximate = some ap) (bin : Int → Int) (hbin : Bins ap bin)
    (hsome : ∃ r ∈ cut, r.time ≠ none)
    (hdist : (cut.map fun r => (r.id, r.time)).Nodup) (hlen : ∀ r ∈ cut, r.pass.length = passCols.length)
    (hpass : (∀ n ∈ passCols, ∀ f ∈ a.features, n ∉ f.names) ∧ "target_time" ∉ passCols ∧ "_original_time" ∉ passCols)
    (hagg : ¬ OnlyApproximated a.features)
    (R : ∀ r ∈ cut, ∀ t, r.time = some t → ApproxOk a.env a.features f0.entity { a.env with timeLast := t } (bin t))
    (hsize : SizeOk a.chunkSize) (hexec : Fair a.exec)
    (ent' : String → Option Ent) (R' : ∀ r ∈ cut, ∀ t, r.time = some t →
      ApproxOk { a.env with ent := ent' } a.features f0.entity { a.env with ent := ent', timeLast := t } (bin t))
    (t : Int) (hs : SameUntil a f0.entity ent' t) (hs' : SameUntil a f0.entity ent' (bin t)) :
    ∃ m m', calculateFeatureMatrix a = .ok m ∧ calculateFeatureMatrix (withData a ent') = .ok m' ∧
      ∀ (i : Nat) r, cut[i]? = some r → r.time = some t → m.rows[i]? = m'.rows[i]? := by
  refine ⟨_, _, (C34_values_partial a f0 fs hf passCols cut hcut ap happ bin hbin hsome hdist hlen hpass hagg R hsize hexec).1,
    (C34_values_partial (withData a ent') f0 fs hf passCols cut hcut ap happ bin hbin hsome hdist hlen hpass hagg R' hsize hexec).1, ?_⟩
  intro i r hr ht
  simp only [List.getElem?_map, hr, Option.map_some, ht]
  have hw : worldAt (withData a ent').env t = worldAt a.env t := world_same (env := { a.env with timeLast := t }) hs.same hs.apart
  have hw' : worldAt (withData a ent').env (bin t) = worldAt a.env (bin t) := world_same (env := { a.env with timeLast := bin t }) hs'.same hs'.apart
  have hG : lookedUp (withData a ent').env a.features (bin t) = lookedUp a.env a.features (bin t) := by
    unfold lookedUp valuesAt
    rw [hw']
  rw [hw]
  rw [show (withData a ent').features = a.features from rfl, hG]

namespace ApproxExample
open CalcExample

/-- All times of the example are in the bin 0. -/
def span : Approx := .delta { times := [("ms", 5)], delta := none }
def bin (t : Int) : Int := t / 5000000 * 5000000

theorem bins : Bins span bin :=
  ⟨"ms", 5, 1000000, rfl, rfl, by decide, fun t => isFloor_div 5000000 t (by decide)⟩

def call : CfmArgs := { CfmExample.call with features := mixed, approximate := some span }
def callNow : CfmArgs := { CfmExample.call with features := targets, approximate := some span }

open Classical in
/-- The two data sets show the same at time 0. -/
theorem shown0 : ∀ x, SameAt { env with timeLast := 0 } (env.ent x) (ent' x) := by
  have vis : ∀ ent : Ent, ent.timeIndex = some "time" →
      (fun r => decide (Visible { env with timeLast := 0 } ent r)) = fun r => (r "time").le 0 := by
    intro ent h
    funext r
    have : visB { env with timeLast := 0 } ent r = (r "time").le 0 := by simp [visB, beforeB, windowB, h, env, Window.start?]
    rw [← this, Bool.eq_iff_iff, visB_iff, decide_eq_true_eq]
  have diag : ∀ l : List Row, l = (l.map fun r => (r, r)).map Prod.fst ∧ l = (l.map fun r => (r, r)).map Prod.snd := by
    intro l; simp [Function.comp_def]
  intro x
  by_cases hc : x = "customers"
  · subst hc
    refine .inr ⟨customers, customers, rfl, rfl, rfl, rfl, rfl, rfl, _, (diag _).1, (diag _).2, ?_⟩
    intro pr hpr c
    obtain ⟨r, _, rfl⟩ := List.mem_map.mp hpr
    exact ⟨Iff.rfl, fun _ => rfl⟩
  · by_cases hs : x = "sessions"
    · subst hs
      refine .inr ⟨sessions, later, rfl, rfl, rfl, rfl, rfl, rfl, (sessions.df.rows.take 1).map fun r => (r, r), ?_, ?_, ?_⟩
      · rw [vis sessions rfl]; rfl
      · rw [vis later rfl]; rfl
      · intro pr hpr c
        obtain ⟨r, _, rfl⟩ := List.mem_map.mp hpr
        exact ⟨Iff.rfl, fun _ => rfl⟩
    · left; simp [env, ent', hc, hs]

theorem sameUntil (t : Int) (h : ∀ x, SameAt { env with timeLast := t } (env.ent x) (ent' x)) : SameUntil call "sessions" ent' t where
  same := h
  apart := CfmExample.sameUntil.apart
  keys := ⟨fun e _ => CfmExample.neverHidden _ _, fun g _ ed _ => ⟨CfmExample.neverHidden _ _, CfmExample.neverHidden _ _⟩⟩

end ApproxExample

/-- The hypotheses hold for a concrete call. The sums are those at time 0, the counts those at the cutoffs. -/
example : ∃ m, calculateFeatureMatrix ApproxExample.call = .ok m ∧
    m.rows = [(.num 12, some 9, [.num 0, .num (-2), .num 1]), (.num 10, some 0, [.num 5, .num (-1), .num 0]),
      (.num 12, some 2, [.num 0, .num (-1), .num 2]), (.num 13, some 2, [.null, .null, .num 3])] :=
  ⟨_, (C34_values_partial ApproxExample.call _ _ rfl ["label"] CfmExample.cut rfl _ rfl ApproxExample.bin ApproxExample.bins
    ⟨_, by simp [CfmExample.cut]; exact .inl rfl, by simp⟩ (by decide) (by decide) (by decide) ApproxExample.notOnlyMixed
    (fun _ _ t _ => ApproxExample.okMixed t _) CfmExample.sizeOk CfmExample.fair).1, by decide +kernel⟩

/-- The hypotheses for features of which all aggregations are approximated hold for a concrete call. Session 13, which starts at
time 9, has its values in the row for time 2. -/
example : ∃ m, calculateFeatureMatrix ApproxExample.callNow = .ok m ∧
    m.rows = [(.num 12, some 9, [.num 0, .num (-9), .num 1]), (.num 10, some 0, [.num 5, .num (-5), .num 0]),
      (.num 12, some 2, [.num 0, .num (-9), .num 2]), (.num 13, some 2, [.num 0, .num (-100), .num 3])] :=
  ⟨_, C34_values_now_partial ApproxExample.callNow _ _ rfl ["label"] CfmExample.cut rfl _ rfl ApproxExample.bin ApproxExample.bins
    ⟨_, by simp [CfmExample.cut]; exact .inl rfl, by simp⟩ (by decide) (by decide) (by decide) ApproxExample.onlyTargets
    (fun _ _ t _ => ApproxExample.okTargets 100 _) (by
      intro r hr r' hr' t t' _ _ _ _ h
      have : ∀ r ∈ CfmExample.cut, r.id ∈ (worldOf { CalcExample.env with timeLast := 100, window := none }).ids "sessions" := by decide +kernel
      exact absurd (this r hr) h) CfmExample.sizeOk CfmExample.fair, by decide +kernel⟩

/-- The value of the approximated direct feature. -/
example : Spec.meaningAt (worldAt CalcExample.env 2) (lookedUp CalcExample.env ApproxExample.mixed 0) [] CalcExample.lookup (.num 12) = [.num 0] := by
  rw [C34_direct_value (ApproxExample.okMixed 2 0) CalcExample.lookup (by simp [ApproxExample.mixed]) CalcExample.rel rfl CalcExample.total rfl
    ApproxExample.totalApproximated]
  decide +kernel

/-- Both data sets meet the hypotheses of the theorem about leaks; the row of session 12 at time 2 is the same for both. -/
example : ∃ m m', calculateFeatureMatrix ApproxExample.call = .ok m ∧ calculateFeatureMatrix (withData ApproxExample.call ApproxExample.ent') = .ok m' ∧
    ∀ (i : Nat) r, CfmExample.cut[i]? = some r → r.time = some 2 → m.rows[i]? = m'.rows[i]? :=
  C60_approximate_partial ApproxExample.call _ _ rfl ["label"] CfmExample.cut rfl _ rfl ApproxExample.bin ApproxExample.bins
    ⟨_, by simp [CfmExample.cut]; exact .inl rfl, by simp⟩ (by decide) (by decide) (by decide) ApproxExample.notOnlyMixed
    (fun _ _ t _ => ApproxExample.okMixed t _) CfmExample.sizeOk CfmExample.fair ApproxExample.ent' (fun _ _ t _ => ApproxExample.okMixed' t _) 2
    (ApproxExample.sameUntil 2 CfmExample.shown) (ApproxExample.sameUntil 0 ApproxExample.shown0)

/-! ## What the conditions exclude -/

namespace ApproxExample
open CalcExample

/-- A call in which all times are in one bin. -/
def oneBin (fs : List Feat) (passCols : List String) (cut : List CutRow) : CfmArgs :=
  { call with features := fs, cutoff := .table passCols cut, exec := .serial, chunkSize := none }

def runningSums : List Val → Int → List Val
  | [], _ => []
  | v :: l, s => .num (s + numOf v) :: runningSums l (s + numOf v)
/-- CUM_SUM -/
def cumPrim : TransPrim := { usesFull := true, usesCalcTime := false, fn := fun _ args => [runningSums (args.headD []) 0] }
def cumTotal : Feat := .mk { entity := "customers", name := "CUM_SUM(SUM(sessions.amount))", names := ["CUM_SUM(SUM(sessions.amount))"], dflt := .null, kind := .trans cumPrim } [total] []
def lookCum : Feat := .mk { entity := "sessions", name := "customers.CUM_SUM(SUM(sessions.amount))", names := ["customers.CUM_SUM(SUM(sessions.amount))"], dflt := .null, kind := .direct rel } [cumTotal] []

/-- An aggregation with two outputs. -/
def endsPrim : AggPrim := { usesCalcTime := false, fn := fun _ args => [(args.headD []).headD .null, (args.headD []).getLastD .null] }
def ends : Feat := .mk { entity := "customers", name := "ENDS(sessions.amount)", names := ["ENDS(sessions.amount)[0]", "ENDS(sessions.amount)[1]"], dflt := .null, kind := .agg [rel] endsPrim none true } [amount] []
def lookEnds : Feat := .mk { entity := "sessions", name := "customers.ENDS(sessions.amount)", names := ["customers.ENDS(sessions.amount)[0]", "customers.ENDS(sessions.amount)[1]"], dflt := .null, kind := .direct rel } [ends] []

/-- Badges of the sessions, by the index of the sessions; the sessions are linked to them by their own index. -/
def badgeRel : Relationship := { parentE := "badges", parentV := "bid", childE := "sessions", childV := "sid" }
def visitRel : Relationship := { parentE := "badges", parentV := "bid", childE := "visits", childV := "bid" }
def badges : Ent := { id := "badges", index := "bid", timeIndex := none, secondary := [], lti := none, df := { cols := ["bid"], rows := [row [("bid", .num 10)]] } }
def visitsEnt : Ent :=
  { id := "visits", index := "vid", timeIndex := none, secondary := [], lti := none
    df := { cols := ["vid", "bid", "amount"], rows := [row [("vid", .num 1), ("bid", .num 10), ("amount", .num 4)]] } }
def badgeEnv : Env :=
  { env with rels := [rel, badgeRel, visitRel]
             ent := fun e => if e = "badges" then some badges else if e = "visits" then some visitsEnt else env.ent e
             keyCols := fun e => if e = "badges" then ["bid"] else if e = "visits" then ["vid", "bid"] else env.keyCols e }
def visitAmount : Feat := .mk { entity := "visits", name := "amount", names := ["amount"], dflt := .null, kind := .identity "amount" } [] []
def visitTotal : Feat := .mk { entity := "badges", name := "SUM(visits.amount)", names := ["SUM(visits.amount)"], dflt := .num 0, kind := .agg [visitRel] sum none true } [visitAmount] []
def lookVisits : Feat := .mk { entity := "sessions", name := "badges.SUM(visits.amount)", names := ["badges.SUM(visits.amount)"], dflt := .null, kind := .direct badgeRel } [visitTotal] []

end ApproxExample

/-- C34 fails when an approximated aggregation is also needed for a feature that is computed on the full entity: only those instances
of its entity are in the table that are looked up by some row of the bin. The running sum in the row of session 12 depends on
whether there is another row in the cutoff table. It should be 21 at time 2. -/
theorem C34_full_entity_violated :
    (∃ m, calculateFeatureMatrix (ApproxExample.oneBin [CalcExample.lookup, ApproxExample.lookCum] [] [⟨.num 12, some 2, []⟩]) = .ok m ∧
      m.rows = [(.num 12, some 2, [.num 0, .num 0])]) ∧
    (∃ m, calculateFeatureMatrix (ApproxExample.oneBin [CalcExample.lookup, ApproxExample.lookCum] [] [⟨.num 12, some 2, []⟩, ⟨.num 10, some 2, []⟩]) = .ok m ∧
      m.rows = [(.num 12, some 2, [.num 0, .num 5]), (.num 10, some 2, [.num 5, .num 5])]) ∧
    (∃ m, calculateFeatureMatrix (ApproxExample.oneBin [ApproxExample.lookCum] [] [⟨.num 12, some 2, []⟩]) = .ok m ∧
      m.rows = [(.num 12, some 2, [.num 21])]) :=
  ⟨⟨_, rfl, by decide +kernel⟩, ⟨_, rfl, by decide +kernel⟩, ⟨_, rfl, by decide +kernel⟩⟩

/-- C34 fails for an approximated aggregation with several outputs when no row of a bin has a parent: the empty table has one column
for it. -/
theorem C34_multi_output_violated :
    (∃ m, calculateFeatureMatrix (ApproxExample.oneBin [ApproxExample.lookEnds] [] [⟨.num 10, some 2, []⟩]) = .ok m ∧ m.rows = [(.num 10, some 2, [.num 5, .num 5])]) ∧
    calculateFeatureMatrix (ApproxExample.oneBin [ApproxExample.lookEnds] [] [⟨.num 77, some 2, []⟩]) = .error .keyError ∧
    (∃ m, calculateFeatureMatrix { ApproxExample.oneBin [ApproxExample.lookEnds] [] [⟨.num 77, some 2, []⟩] with approximate := none } = .ok m ∧
      m.rows = [(.num 77, some 2, [.null, .null])]) :=
  ⟨⟨_, rfl, by decide +kernel⟩, by decide +kernel, ⟨_, rfl, by decide +kernel⟩⟩

/-- C34 fails when the entity is linked by its own index: there is no matrix with `approximate`. -/
theorem C34_own_index_violated :
    calculateFeatureMatrix { ApproxExample.oneBin [ApproxExample.lookVisits] [] [⟨.num 10, some 2, []⟩] with env := ApproxExample.badgeEnv } = .error .keyError ∧
    (∃ m, calculateFeatureMatrix { ApproxExample.oneBin [ApproxExample.lookVisits] [] [⟨.num 10, some 2, []⟩] with env := ApproxExample.badgeEnv, approximate := none } = .ok m ∧
      m.rows = [(.num 10, some 2, [.num 4])]) :=
  ⟨by decide +kernel, ⟨_, rfl, by decide +kernel⟩⟩

/-- C34 fails, when every aggregation is approximated, for an instance that is not in the data and has two rows in a bin. -/
theorem C34_unknown_instance_violated :
    calculateFeatureMatrix (ApproxExample.oneBin [CalcExample.lookup] [] [⟨.num 77, some 2, []⟩, ⟨.num 77, some 3, []⟩]) = .error .valueError ∧
    (∃ m, calculateFeatureMatrix (ApproxExample.oneBin [CalcExample.lookup] [] [⟨.num 77, some 2, []⟩]) = .ok m ∧ m.rows = [(.num 77, some 2, [.null])]) :=
  ⟨by decide +kernel, ⟨_, rfl, by decide +kernel⟩⟩

/-- C32 fails for the same cutoff table: in one process there is no matrix, but with two workers, or with chunks of one row, the two
rows are in different chunks and there is one. -/
theorem C32_unknown_instance_violated :
    let a := ApproxExample.oneBin [CalcExample.lookup] [] [⟨.num 77, some 2, []⟩, ⟨.num 77, some 3, []⟩]
    calculateFeatureMatrix a = .error .valueError ∧
    (∃ m, calculateFeatureMatrix { a with exec := .parallel 2 List.range } = .ok m ∧
      m.rows = [(.num 77, some 2, [.null]), (.num 77, some 3, [.null])]) ∧
    (∃ m, calculateFeatureMatrix { a with chunkSize := some 1 } = .ok m ∧
      m.rows = [(.num 77, some 2, [.null]), (.num 77, some 3, [.null])]) :=
  ⟨by decide +kernel, ⟨_, rfl, by decide +kernel⟩, ⟨_, rfl, by decide +kernel⟩⟩

/-- C34 fails for passed columns with names that the code uses itself: `target_time` is overwritten by the time of the bin, with
`_original_time` there is no matrix. -/
theorem C34_pass_names_violated :
    (∃ m, calculateFeatureMatrix (ApproxExample.oneBin [CalcExample.lookup] ["target_time"] [⟨.num 10, some 3, [.num 8]⟩]) = .ok m ∧
      m.rows = [(.num 10, some 3, [.num 5, .num 0])]) ∧
    calculateFeatureMatrix (ApproxExample.oneBin [CalcExample.lookup] ["_original_time"] [⟨.num 10, some 3, [.num 8]⟩]) = .error .other :=
  ⟨⟨_, rfl, by decide +kernel⟩, by decide +kernel⟩

end FT
