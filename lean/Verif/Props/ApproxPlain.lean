import Verif.Lemmas.ApproxPlain
import Verif.Props.CfmApprox
/-!
# C34: `approximate` under plain conditions

`C34_values_partial` assumes `ApproxOk`, which speaks about the plan of the computation. Here the conditions are about the features, the
data and the names of columns only (`Spec/ApproxPlain.lean`).
-/
namespace FT
open Spec

/-- C34. A cutoff table with `approximate`, where some aggregation is not approximated. If the features can be computed without
`approximate`, no feature computed on a full entity meets the approximated ones, and no entity is linked to them by its own index,
then every row has the approximated aggregations at its bin, and all else at its cutoff. -/
theorem C34_plain_partial (a : CfmArgs) (f0 : Feat) (fs : List Feat) (hf : a.features = f0 :: fs) (passCols : List String) (cut : List CutRow)
    (hcut : a.cutoff = .table passCols cut) (ap : Approx) (happ : a.approximate = some ap) (bin : Int → Int) (hbin : Bins ap bin)
    (hsome : ∃ r ∈ cut, r.time ≠ none)
    (hdist : (cut.map fun r => (r.id, r.time)).Nodup) (hlen : ∀ r ∈ cut, r.pass.length = passCols.length)
    (hpass : (∀ n ∈ passCols, ∀ f ∈ a.features, n ∉ f.names) ∧ "target_time" ∉ passCols ∧ "_original_time" ∉ passCols)
    (hagg : ¬ OnlyApproximated a.features) (C : Computable a.env a.features f0.entity) (P : CanApproximate a.env a.features)
    (hsize : SizeOk a.chunkSize) (hexec : Fair a.exec) :
    calculateFeatureMatrix a = .ok {
      cols := (a.features.flatMap Feat.names) ++ passCols,
      rows := cut.map fun r => (r.id, if a.inIndex then r.time else none,
        match r.time with
        | some t => answerAt (worldAt a.env t) (lookedUp a.env a.features (bin t)) f0.entity a.features r.id ++ r.pass
        | none => ((a.features.flatMap Feat.names) ++ passCols).map fun _ => .null) } ∧ ∀ t, bin t ≤ t :=
  C34_values_partial a f0 fs hf passCols cut hcut ap happ bin hbin hsome hdist hlen hpass hagg
    (fun _ _ t _ => approxOk_of_apart C P t (bin t) C.window) hsize hexec

/-- C34. The same when every aggregation is approximated: all else is computed with the data there is now, without a window. -/
theorem C34_plain_now_partial (a : CfmArgs) (f0 : Feat) (fs : List Feat) (hf : a.features = f0 :: fs) (passCols : List String) (cut : List CutRow)
    (hcut : a.cutoff = .table passCols cut) (ap : Approx) (happ : a.approximate = some ap) (bin : Int → Int) (hbin : Bins ap bin)
    (hsome : ∃ r ∈ cut, r.time ≠ none)
    (hdist : (cut.map fun r => (r.id, r.time)).Nodup) (hlen : ∀ r ∈ cut, r.pass.length = passCols.length)
    (hpass : (∀ n ∈ passCols, ∀ f ∈ a.features, n ∉ f.names) ∧ "target_time" ∉ passCols ∧ "_original_time" ∉ passCols)
    (hagg : OnlyApproximated a.features) (C : Computable a.env a.features f0.entity) (P : CanApproximate a.env a.features)
    (hunknown : ∀ r ∈ cut, ∀ r' ∈ cut, ∀ t t', r.time = some t → r'.time = some t' → bin t = bin t' → r.id = r'.id →
      r.id ∉ (worldOf { a.env with timeLast := a.now, window := none }).ids f0.entity → r = r')
    (hsize : SizeOk a.chunkSize) (hexec : Fair a.exec) :
    calculateFeatureMatrix a = .ok {
      cols := (a.features.flatMap Feat.names) ++ passCols,
      rows := cut.map fun r => (r.id, if a.inIndex then r.time else none,
        match r.time with
        | some t => answerAt (worldOf { a.env with timeLast := a.now, window := none }) (lookedUp a.env a.features (bin t)) f0.entity a.features r.id ++ r.pass
        | none => ((a.features.flatMap Feat.names) ++ passCols).map fun _ => .null) } :=
  C34_values_now_partial a f0 fs hf passCols cut hcut ap happ bin hbin hsome hdist hlen hpass hagg
    (fun _ _ t _ => approxOk_of_apart C P a.now (bin t) rfl) hunknown hsize hexec

end FT
