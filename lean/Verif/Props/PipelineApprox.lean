import Verif.Props.Pipeline
import Verif.Props.DfsApprox
/-!
# C82: `dfs` with `approximate` does not look into the future
-/
namespace FT
open Spec

theorem Spec.SameSchema.index {T : VarClasses} {es es' : ESet} (h : SameSchema es es') (env : Env) (e : String) :
    indexOf (calcEnv T es' env) e = indexOf (calcEnv T es env) e := by
  have h1 := find_proj (fun x : Entity => (x.id, x.index, x.vars)) (fun i => i == e) es.entities es'.entities h.entities
  have h2 := congrArg (Option.map fun p : String × String × List Var => p.2.1) h1
  simp only [Option.map_map, Function.comp_def] at h2
  simp only [indexOf, calcEnv, Option.map_map]
  exact congrArg (fun o => Option.getD o "") h2

/-- C82 with `approximate`. Two entity sets of the same schema show the same at the time `t` and at its bin. Then `dfs` succeeds on
both, with the same features, and rows of the matrix with cutoff `t` are the same, if some aggregation is not approximated. -/
theorem C82_approximate_partial (L : Lang) (equalScalar : Val → Prim) (T : VarClasses) (R : Reading) (es es' : ESet) (hschema : SameSchema es es')
    (hkeys : KeysNotSecondary es) (hL : ∀ l, (L.setOrder l).Perm l) (a : DfsArgs) (hfollow : SeedsFollow es a.seeds) (c : CfmArgs)
    (passCols : List String) (cut : List CutRow) (hcut : c.cutoff = .table passCols cut)
    (ap : Approx) (happ : c.approximate = some ap) (bin : Int → Int) (hbin : Bins ap bin)
    (hsome : ∃ x ∈ cut, x.time ≠ none) (hdist : (cut.map fun x => (x.id, x.time)).Nodup) (hlen : ∀ x ∈ cut, x.pass.length = passCols.length)
    (hP : PrimsOk L equalScalar R a) (hsize : SizeOk c.chunkSize) (hexec : Fair c.exec)
    (hD : DataFor (calcEnv T es c.env) (es.entities.map (synthEnt T))) (hD' : DataFor (calcEnv T es' c.env) (es'.entities.map (synthEnt T)))
    (hseeds : SeedsComputable L (calcEnv T es c.env) (a.seeds.map (readFeat R L es.rels)))
    (hseeds' : SeedsComputable L (calcEnv T es' c.env) (a.seeds.map (readFeat R L es.rels)))
    (r : List DFeat) (hr : dfsFeaturesOn L equalScalar T es a = .ok r) (hne : r ≠ [])
    (hA : NamesApart (calcEnv T es c.env) (r.map (readFeat R L es.rels)))
    (hS : SlicesLocal (r.map (readFeat R L es.rels))) (hC : ConditionsApart (r.map (readFeat R L es.rels)))
    (hpass : (∀ n ∈ passCols, ∀ f ∈ r.map (readFeat R L es.rels), n ∉ f.names) ∧ "target_time" ∉ passCols ∧ "_original_time" ∉ passCols)
    (hagg : ¬ OnlyApproximated (r.map (readFeat R L es.rels))) (hcan : CanApproximate (calcEnv T es c.env) (r.map (readFeat R L es.rels)))
    (t : Int) (hsame : SameBefore c.env es es' t) (hsameBin : SameBefore c.env es es' (bin t)) :
    ∃ m m', dfsOn L equalScalar T R es a c = .ok (m, r) ∧ dfsOn L equalScalar T R es' a c = .ok (m', r) ∧ m.cols = m'.cols ∧
      ∀ (i : Nat) x, cut[i]? = some x → x.time = some t → m.rows[i]? = m'.rows[i]? := by
  have hrels : es'.rels = es.rels := hschema.rels
  have henv := hschema.env (T := T) c.env
  have hcom := dfs_computable (env := calcEnv T es c.env) hL hseeds hD hP hr hA hS hC
  have hr' := C82_features L equalScalar T es es' hschema a
  rw [hr] at hr'
  have hA' : NamesApart (calcEnv T es' c.env) (r.map (readFeat R L es.rels)) := by
    rw [henv]
    exact ⟨hA.identify, hA.columns, hA.keys, hA.paths, hA.linkKeys, hA.linkFeatures⟩
  have hcan' : CanApproximate (calcEnv T es' c.env) (r.map (readFeat R L es.rels)) := by
    refine ⟨hcan.full, fun p g h x hx => ?_⟩
    rw [hschema.index]
    exact hcan.links p g h x hx
  have hrl : (calcEnv T es' c.env).rels = es.rels := hrels
  have hcom' := dfs_computable (env := calcEnv T es' c.env) hL (by rw [hrl]; exact hseeds') hD' hP hr' (by rw [hrl]; exact hA')
    (by rw [hrl]; exact hS) (by rw [hrl]; exact hC)
  rw [hrl] at hcom'
  rw [henv] at hcom' hcan'
  obtain ⟨f0, fs, hfs⟩ := List.exists_cons_of_ne_nil hne
  have hent : (readFeat R L es.rels f0).entity = a.target := (hcom.target _ (List.mem_map_of_mem (by rw [hfs]; simp))).1
  have hu := fun s => dfs_sameUntil (R := R) (c := c) (es' := es') (t := s) hL hfollow hr hkeys
  obtain ⟨m, m', h1, h2, h3⟩ := C60_approximate_partial { c with env := calcEnv T es c.env, features := r.map (readFeat R L es.rels) }
    (readFeat R L es.rels f0) (fs.map (readFeat R L es.rels)) (by rw [hfs]; rfl) passCols cut hcut ap happ bin hbin hsome hdist hlen hpass hagg
    (fun _ _ s _ => by rw [hent]; exact approxOk_of_apart hcom hcan s (bin s) hcom.window) hsize hexec (fun e => (es'.get? e).map calcEnt)
    (fun _ _ s _ => by rw [hent]; exact approxOk_of_apart hcom' hcan' s (bin s) hcom'.window) t
    (by rw [hent]; exact hu t hsame) (by rw [hent]; exact hu (bin t) hsameBin)
  refine ⟨m, m', ?_, ?_, ?_, h3⟩
  · rw [dfsOn_self, hr]; dsimp only; rw [h1]
  · rw [dfsOn_eq L equalScalar T R es es' hschema, hr]; dsimp only; rw [h2]
  · have e1 := (C34_plain_partial { c with env := calcEnv T es c.env, features := r.map (readFeat R L es.rels) } (readFeat R L es.rels f0)
      (fs.map (readFeat R L es.rels)) (by rw [hfs]; rfl) passCols cut hcut ap happ bin hbin hsome hdist hlen hpass hagg (by rw [hent]; exact hcom)
      hcan hsize hexec).1
    have e2 := (C34_plain_partial (withData { c with env := calcEnv T es c.env, features := r.map (readFeat R L es.rels) } fun e => (es'.get? e).map calcEnt)
      (readFeat R L es.rels f0) (fs.map (readFeat R L es.rels)) (by rw [hfs]; rfl) passCols cut hcut ap happ bin hbin hsome hdist hlen hpass hagg
      (by rw [hent]; exact hcom') hcan' hsize hexec).1
    rw [h1] at e1
    rw [h2] at e2
    cases e1; cases e2; rfl

end FT
