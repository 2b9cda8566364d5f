import Verif.Lemmas.Pipeline
import Verif.Props.DfsMatrix
/-!
# C82: `dfs` does not look into the future

`Spec.SameBefore env es es' t` says that two entity sets show the same at time `t`; what comes later may differ in any way.
-/
namespace FT
open Spec

/-- C82. Which features `dfs` builds, or which error it raises, depends on the schema alone: not on any row. -/
theorem C82_features (L : Lang) (equalScalar : Val → Prim) (T : VarClasses) (es es' : ESet) (hschema : SameSchema es es') (a : DfsArgs) :
    dfsFeaturesOn L equalScalar T es' a = dfsFeaturesOn L equalScalar T es a := by
  unfold dfsFeaturesOn
  rw [hschema.synth, hschema.rels]

/-- A call on the other entity set, by what it builds. -/
theorem dfsOn_eq (L : Lang) (equalScalar : Val → Prim) (T : VarClasses) (R : Reading) (es es' : ESet) (hschema : SameSchema es es') (a : DfsArgs)
    (c : CfmArgs) : dfsOn L equalScalar T R es' a c = match dfsFeaturesOn L equalScalar T es a with
      | .error e => .error e
      | .ok r => match calculateFeatureMatrix (withData { c with env := calcEnv T es c.env, features := r.map (readFeat R L es.rels) }
            fun e => (es'.get? e).map calcEnt) with
        | .error e => .error (.py e)
        | .ok m => .ok (m, r) := by
  unfold dfsOn dfsMatrix
  rw [hschema.env]
  rw [← C82_features L equalScalar T es es' hschema a]
  unfold dfsFeaturesOn
  have : es'.rels = es.rels := hschema.rels
  simp only [calcEnv, this]
  rfl

theorem dfsOn_self (L : Lang) (equalScalar : Val → Prim) (T : VarClasses) (R : Reading) (es : ESet) (a : DfsArgs)
    (c : CfmArgs) : dfsOn L equalScalar T R es a c = match dfsFeaturesOn L equalScalar T es a with
      | .error e => .error e
      | .ok r => match calculateFeatureMatrix { c with env := calcEnv T es c.env, features := r.map (readFeat R L es.rels) } with
        | .error e => .error (.py e)
        | .ok m => .ok (m, r) := rfl

/-- The first feature of a call is one of the target. -/
theorem dfs_head {L : Lang} {equalScalar : Val → Prim} {T : VarClasses} {es : ESet} {a : DfsArgs} (hL : ∀ l, (L.setOrder l).Perm l)
    {f : DFeat} {fs : List DFeat} (hr : dfsFeaturesOn L equalScalar T es a = .ok (f :: fs)) (R : Reading) :
    (readFeat R L es.rels f).entity = a.target := by
  obtain ⟨S, hc, hb⟩ := dfs_built hL hr
  rw [read_entity]
  exact (hb f (by simp)).2.1

/-- The columns of a matrix depend on the features and the cutoff table only. -/
theorem cfm_cols (a : CfmArgs) (ent' : String → Option Ent) (passCols : List String) (cut : List CutRow) (hcut : a.cutoff = .table passCols cut)
    (m m' : Matrix) (hm : calculateFeatureMatrix a = .ok m) (hm' : calculateFeatureMatrix (withData a ent') = .ok m') : m.cols = m'.cols := by
  have key : ∀ b : CfmArgs, b.features = a.features → b.cutoff = a.cutoff → b.approximate = a.approximate → ∀ x, calculateFeatureMatrix b = .ok x →
      x.cols = if a.approximate = none then withPass (a.features.flatMap Feat.names) passCols
        else ((a.features.flatMap Feat.names).filter fun n => n ∉ passCols) ++ passCols := by
    have hre' : ∀ (b : Bool) cols rows x, (reindexTable cols cut rows).map (dropTime b) = .ok x → x.cols = cols := by
      intro b cols rows x h
      unfold reindexTable at h
      split at h
      · simp only [Except.map] at h
        cases h
        unfold dropTime
        split <;> rfl
      · cases h
    intro b h1 h2 h3 x h
    rw [hcut] at h2
    unfold calculateFeatureMatrix at h
    split at h
    · cases h
    · rw [h2] at h
      simp only [cfmTable] at h
      split at h
      · split at h
        · next hap =>
          rw [← h3, if_pos hap]
          split at h
          · cases h
          · split at h
            · cases h
            · rw [hre' _ _ _ _ h]
              simp only [Call.featCols, h1]
        · next ap hap =>
          rw [← h3, if_neg (by rw [hap]; simp)]
          split at h
          · cases h
          · split at h
            · cases h
            · split at h
              · cases h
              · rw [hre' _ _ _ _ h]
                simp only [Call.approxCols, Call.featCols, h1]
      · cases h
  rw [key a rfl rfl rfl m hm, key (withData a ent') rfl rfl rfl m' hm']

/-- C82. Rows of the matrix with cutoff `t` are the same for two entity sets that show the same at `t`: same features, same columns,
same values, whatever the data is later and whatever the other rows are. -/
theorem C82_row_partial (L : Lang) (equalScalar : Val → Prim) (T : VarClasses) (R : Reading) (es es' : ESet) (hschema : SameSchema es es')
    (hkeys : KeysNotSecondary es) (hL : ∀ l, (L.setOrder l).Perm l) (a : DfsArgs) (hseeds : SeedsFollow es a.seeds) (c : CfmArgs)
    (passCols : List String) (cut : List CutRow) (hcut : c.cutoff = .table passCols cut) (happ : c.approximate = none) (t : Int)
    (hsame : SameBefore c.env es es' t) (m m' : Matrix) (r r' : List DFeat)
    (hm : dfsOn L equalScalar T R es a c = .ok (m, r)) (hm' : dfsOn L equalScalar T R es' a c = .ok (m', r')) :
    r = r' ∧ m.cols = m'.cols ∧ ∀ (i : Nat) x, cut[i]? = some x → x.time = some t → m.rows[i]? = m'.rows[i]? := by
  rw [dfsOn_eq L equalScalar T R es es' hschema] at hm'
  rw [dfsOn_self] at hm
  cases hr : dfsFeaturesOn L equalScalar T es a with
  | error e => rw [hr] at hm; cases hm
  | ok fs =>
    rw [hr] at hm hm'
    dsimp only at hm hm'
    split at hm
    · cases hm
    · next m0 h0 =>
      split at hm'
      · cases hm'
      · next m1 h1 =>
        cases hm
        cases hm'
        refine ⟨rfl, ?_⟩
        cases r with
        | nil => simp [calculateFeatureMatrix] at h0
        | cons f fs =>
          have hu := dfs_sameUntil (R := R) (c := c) hL hseeds hr hkeys hsame
          rw [← dfs_head hL hr R] at hu
          refine ⟨cfm_cols { c with env := calcEnv T es c.env, features := (f :: fs).map (readFeat R L es.rels) } _ passCols cut hcut m m' h0 h1, ?_⟩
          exact C60_row_partial { c with env := calcEnv T es c.env, features := (f :: fs).map (readFeat R L es.rels) } _ _ rfl passCols cut hcut happ
            (fun e => (es'.get? e).map calcEnt) t hu m m' h0 h1

/-- C82. If the entity sets show the same at all times of the cutoff table, the two calls are the same, also when they raise. -/
theorem C82_table_partial (L : Lang) (equalScalar : Val → Prim) (T : VarClasses) (R : Reading) (es es' : ESet) (hschema : SameSchema es es')
    (hkeys : KeysNotSecondary es) (hL : ∀ l, (L.setOrder l).Perm l) (a : DfsArgs) (hseeds : SeedsFollow es a.seeds) (c : CfmArgs)
    (passCols : List String) (cut : List CutRow) (hcut : c.cutoff = .table passCols cut) (happ : c.approximate = none)
    (hsame : ∀ x ∈ cut, ∀ t, x.time = some t → SameBefore c.env es es' t) :
    dfsOn L equalScalar T R es' a c = dfsOn L equalScalar T R es a c := by
  rw [dfsOn_eq L equalScalar T R es es' hschema, dfsOn_self]
  cases hr : dfsFeaturesOn L equalScalar T es a with
  | error e => rfl
  | ok r =>
    dsimp only
    cases r with
    | nil => rfl
    | cons f fs =>
      rw [C60_table_partial { c with env := calcEnv T es c.env, features := (f :: fs).map (readFeat R L es.rels) } _ _ rfl passCols cut hcut happ]
      intro x hx t ht
      have hu := dfs_sameUntil (R := R) (c := c) hL hseeds hr hkeys (hsame x hx t ht)
      rw [← dfs_head hL hr R] at hu
      exact hu

/-- C82. With a single cutoff time, or none (then it is the time of the call), the two calls are the same, also when they raise: for
given instances, and for all instances known at that time. -/
theorem C82_single_partial (L : Lang) (equalScalar : Val → Prim) (T : VarClasses) (R : Reading) (es es' : ESet) (hschema : SameSchema es es')
    (hkeys : KeysNotSecondary es) (hL : ∀ l, (L.setOrder l).Perm l) (a : DfsArgs) (hseeds : SeedsFollow es a.seeds) (c : CfmArgs) (t : Int)
    (hcut : c.cutoff = .single t ∨ (c.cutoff = .missing ∧ c.now = t)) (happ : c.approximate = none)
    (hids : c.instanceIds = none → c.env.window.all Window.hasNoObservations = true) (hsame : SameBefore c.env es es' t) :
    dfsOn L equalScalar T R es' a c = dfsOn L equalScalar T R es a c := by
  rw [dfsOn_eq L equalScalar T R es es' hschema, dfsOn_self]
  cases hr : dfsFeaturesOn L equalScalar T es a with
  | error e => rfl
  | ok r =>
    dsimp only
    cases r with
    | nil => rfl
    | cons f fs =>
      have hu := dfs_sameUntil (R := R) (c := c) hL hseeds hr hkeys hsame
      rw [← dfs_head hL hr R] at hu
      rcases Option.eq_none_or_eq_some c.instanceIds with hi | ⟨ids, hi⟩
      · rw [C60_all_instances_partial { c with env := calcEnv T es c.env, features := (f :: fs).map (readFeat R L es.rels) } _ _ rfl t hcut happ
          hi (hids hi) _ hu]
      · rw [C60_single_partial { c with env := calcEnv T es c.env, features := (f :: fs).map (readFeat R L es.rels) } _ _ rfl t hcut happ ids
          hi _ hu]

end FT
