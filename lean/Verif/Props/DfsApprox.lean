import Verif.Props.DfsMatrix
import Verif.Props.ApproxSingle
/-!
# C79: calls of `dfs` with `approximate`

`Spec.answerAt` is the row of an instance when some features are looked up; `Spec.lookedUp` tells which are and that their values are
those at the bin.
-/
namespace FT
open Spec

/-- C79 with `approximate`, if some aggregation is not approximated: the features of the matrix are those the synthesis builds; the
aggregations brought down from parents are those of the bin of the cutoff, all else is computed at the cutoff. -/
theorem C79_approximate_partial (L : Lang) (equalScalar : Val → Prim) (ents : List DEnt) (R : Reading) (a : DfsArgs) (c : CfmArgs)
    (hL : ∀ l, (L.setOrder l).Perm l) (hseeds : SeedsComputable L c.env (a.seeds.map (readFeat R L c.env.rels))) (hD : DataFor c.env ents)
    (hP : PrimsOk L equalScalar R a)
    (r : List DFeat) (hr : dfsFeatures L equalScalar ents c.env.rels a = .ok r) (hne : r ≠ [])
    (hA : NamesApart c.env (r.map (readFeat R L c.env.rels)))
    (hS : SlicesLocal (r.map (readFeat R L c.env.rels))) (hC : ConditionsApart (r.map (readFeat R L c.env.rels)))
    (passCols : List String) (cut : List CutRow) (hcut : c.cutoff = .table passCols cut)
    (ap : Approx) (happ : c.approximate = some ap) (bin : Int → Int) (hbin : Bins ap bin)
    (hagg : ¬ OnlyApproximated (r.map (readFeat R L c.env.rels))) (hcan : CanApproximate c.env (r.map (readFeat R L c.env.rels)))
    (hsome : ∃ x ∈ cut, x.time ≠ none) (hdist : (cut.map fun x => (x.id, x.time)).Nodup) (hlen : ∀ x ∈ cut, x.pass.length = passCols.length)
    (hpass : (∀ n ∈ passCols, ∀ f ∈ r.map (readFeat R L c.env.rels), n ∉ f.names) ∧ "target_time" ∉ passCols ∧ "_original_time" ∉ passCols)
    (hsize : SizeOk c.chunkSize) (hexec : Fair c.exec) :
    dfsMatrix L equalScalar ents R a c = .ok ({
      cols := (r.map (readFeat R L c.env.rels)).flatMap Feat.names ++ passCols,
      rows := cut.map fun x => (x.id, if c.inIndex then x.time else none,
        match x.time with
        | some t => answerAt (worldAt c.env t) (lookedUp c.env (r.map (readFeat R L c.env.rels)) (bin t)) a.target (r.map (readFeat R L c.env.rels)) x.id ++ x.pass
        | none => ((r.map (readFeat R L c.env.rels)).flatMap Feat.names ++ passCols).map fun _ => .null) }, r) ∧ ∀ t, bin t ≤ t := by
  have hcom := dfs_computable hL hseeds hD hP hr hA hS hC
  obtain ⟨f0, fs, hfs⟩ := List.exists_cons_of_ne_nil hne
  have hent : (readFeat R L c.env.rels f0).entity = a.target := (hcom.target _ (by rw [hfs]; simp)).1
  have := C34_plain_partial { c with features := r.map (readFeat R L c.env.rels) } (readFeat R L c.env.rels f0) (fs.map (readFeat R L c.env.rels))
    (by rw [hfs]; rfl) passCols cut hcut ap happ bin hbin hsome hdist hlen hpass hagg (by rw [hent]; exact hcom) hcan hsize hexec
  rw [hent] at this
  refine ⟨?_, this.2⟩
  unfold dfsMatrix
  rw [hr]
  dsimp only
  rw [this.1]
  rfl

/-- C79 with `approximate`, if all aggregations are approximated: then all else is computed with the data there is now. An instance
that is not in the data may have only one row in a bin. -/
theorem C79_approximate_now_partial (L : Lang) (equalScalar : Val → Prim) (ents : List DEnt) (R : Reading) (a : DfsArgs) (c : CfmArgs)
    (hL : ∀ l, (L.setOrder l).Perm l) (hseeds : SeedsComputable L c.env (a.seeds.map (readFeat R L c.env.rels))) (hD : DataFor c.env ents)
    (hP : PrimsOk L equalScalar R a)
    (r : List DFeat) (hr : dfsFeatures L equalScalar ents c.env.rels a = .ok r) (hne : r ≠ [])
    (hA : NamesApart c.env (r.map (readFeat R L c.env.rels)))
    (hS : SlicesLocal (r.map (readFeat R L c.env.rels))) (hC : ConditionsApart (r.map (readFeat R L c.env.rels)))
    (passCols : List String) (cut : List CutRow) (hcut : c.cutoff = .table passCols cut)
    (ap : Approx) (happ : c.approximate = some ap) (bin : Int → Int) (hbin : Bins ap bin)
    (hagg : OnlyApproximated (r.map (readFeat R L c.env.rels))) (hcan : CanApproximate c.env (r.map (readFeat R L c.env.rels)))
    (hsome : ∃ x ∈ cut, x.time ≠ none) (hdist : (cut.map fun x => (x.id, x.time)).Nodup) (hlen : ∀ x ∈ cut, x.pass.length = passCols.length)
    (hpass : (∀ n ∈ passCols, ∀ f ∈ r.map (readFeat R L c.env.rels), n ∉ f.names) ∧ "target_time" ∉ passCols ∧ "_original_time" ∉ passCols)
    (hunknown : ∀ x ∈ cut, ∀ y ∈ cut, ∀ t t', x.time = some t → y.time = some t' → bin t = bin t' → x.id = y.id →
      x.id ∉ (worldOf { c.env with timeLast := c.now, window := none }).ids a.target → x = y)
    (hsize : SizeOk c.chunkSize) (hexec : Fair c.exec) :
    dfsMatrix L equalScalar ents R a c = .ok ({
      cols := (r.map (readFeat R L c.env.rels)).flatMap Feat.names ++ passCols,
      rows := cut.map fun x => (x.id, if c.inIndex then x.time else none,
        match x.time with
        | some t => answerAt (worldOf { c.env with timeLast := c.now, window := none }) (lookedUp c.env (r.map (readFeat R L c.env.rels)) (bin t)) a.target
            (r.map (readFeat R L c.env.rels)) x.id ++ x.pass
        | none => ((r.map (readFeat R L c.env.rels)).flatMap Feat.names ++ passCols).map fun _ => .null) }, r) := by
  have hcom := dfs_computable hL hseeds hD hP hr hA hS hC
  obtain ⟨f0, fs, hfs⟩ := List.exists_cons_of_ne_nil hne
  have hent : (readFeat R L c.env.rels f0).entity = a.target := (hcom.target _ (by rw [hfs]; simp)).1
  have := C34_plain_now_partial { c with features := r.map (readFeat R L c.env.rels) } (readFeat R L c.env.rels f0) (fs.map (readFeat R L c.env.rels))
    (by rw [hfs]; rfl) passCols cut hcut ap happ bin hbin hsome hdist hlen hpass hagg (by rw [hent]; exact hcom) hcan
    (by rw [hent]; exact hunknown) hsize hexec
  rw [hent] at this
  unfold dfsMatrix
  rw [hr]
  dsimp only
  rw [this]
  rfl

/-- C79 with `approximate` and a single cutoff time: for given instances, known or not, or for all there are at that time. `rest` is
the time at which all but the approximated aggregations are computed: the cutoff, or the time of the call if no other aggregation
remains. -/
theorem C79_approximate_single_partial (L : Lang) (equalScalar : Val → Prim) (ents : List DEnt) (R : Reading) (a : DfsArgs) (c : CfmArgs)
    (hL : ∀ l, (L.setOrder l).Perm l) (hseeds : SeedsComputable L c.env (a.seeds.map (readFeat R L c.env.rels))) (hD : DataFor c.env ents)
    (hP : PrimsOk L equalScalar R a)
    (r : List DFeat) (hr : dfsFeatures L equalScalar ents c.env.rels a = .ok r) (hne : r ≠ [])
    (hA : NamesApart c.env (r.map (readFeat R L c.env.rels)))
    (hS : SlicesLocal (r.map (readFeat R L c.env.rels))) (hC : ConditionsApart (r.map (readFeat R L c.env.rels)))
    (t : Int) (hcut : c.cutoff = .single t ∨ (c.cutoff = .missing ∧ c.now = t))
    (ap : Approx) (happ : c.approximate = some ap) (bin : Int → Int) (hbin : Bins ap bin)
    (hcan : CanApproximate c.env (r.map (readFeat R L c.env.rels)))
    (rest : Env) (hrest : (OnlyApproximated (r.map (readFeat R L c.env.rels)) ∧ rest = { c.env with timeLast := c.now, window := none }) ∨
      (¬ OnlyApproximated (r.map (readFeat R L c.env.rels)) ∧ rest = { c.env with timeLast := t }))
    (ids : List Val) (hids : c.instanceIds = some ids ∧ ids.Nodup ∨ c.instanceIds = none ∧ ids = (worldAt c.env t).ids a.target) (hine : ids ≠ [])
    (hsize : SizeOk c.chunkSize) (hexec : Fair c.exec) :
    dfsMatrix L equalScalar ents R a c = .ok ({
      cols := (r.map (readFeat R L c.env.rels)).flatMap Feat.names,
      rows := ids.map fun i => (i, if c.inIndex then some t else none,
        answerAt (worldOf rest) (lookedUp c.env (r.map (readFeat R L c.env.rels)) (bin t)) a.target (r.map (readFeat R L c.env.rels)) i) }, r) := by
  have hcom := dfs_computable hL hseeds hD hP hr hA hS hC
  obtain ⟨f0, fs, hfs⟩ := List.exists_cons_of_ne_nil hne
  have hent : (readFeat R L c.env.rels f0).entity = a.target := (hcom.target _ (by rw [hfs]; simp)).1
  unfold dfsMatrix
  rw [hr]
  dsimp only
  rcases hids with ⟨hids, hdist⟩ | ⟨hids, rfl⟩
  · rcases hrest with ⟨hagg, rfl⟩ | ⟨hagg, rfl⟩
    · have := C34_single_now_partial { c with features := r.map (readFeat R L c.env.rels) } (readFeat R L c.env.rels f0) (fs.map (readFeat R L c.env.rels))
        (by rw [hfs]; rfl) t hcut ap happ bin hbin ids hids hine hdist hagg (by rw [hent]; exact hcom) hcan hsize hexec
      rw [hent] at this
      rw [this]
    · have := C34_single_partial { c with features := r.map (readFeat R L c.env.rels) } (readFeat R L c.env.rels f0) (fs.map (readFeat R L c.env.rels))
        (by rw [hfs]; rfl) t hcut ap happ bin hbin ids hids hine hdist hagg (by rw [hent]; exact hcom) hcan hsize hexec
      rw [hent] at this
      rw [this]
      rfl
  · have := C34_all_instances_partial { c with features := r.map (readFeat R L c.env.rels) } (readFeat R L c.env.rels f0) (fs.map (readFeat R L c.env.rels))
      (by rw [hfs]; rfl) t hcut ap happ bin hbin hids (by rw [hent]; exact hine) (by rw [hent]; exact hcom) hcan rest hrest hsize hexec
    rw [hent] at this
    rw [this]

end FT
