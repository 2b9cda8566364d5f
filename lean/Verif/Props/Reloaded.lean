import Verif.Lemmas.Reloaded
import Verif.Lemmas.Pipeline
/-! # C83: a saved and reloaded entity set gives the same features and the same matrix -/
namespace FT
open Spec

/-- Entities that are the same to their users are the same to the synthesis and to the calculator. -/
theorem readBack_synth {T : VarClasses} {x y : Entity} (h : ReadBack x y) : synthEnt T y = synthEnt T x := by
  have hv := congrArg (List.map fun p : String × String × String × List Val × String => (⟨p.1, p.2.2.1, T.cls p.2.1, p.2.2.2.1⟩ : DVar)) h.vars
  simp only [List.map_map, Function.comp_def] at hv
  unfold synthEnt
  rw [h.id, h.index]
  congr 1

theorem readBack_keys {T : VarClasses} {x y : Entity} (h : ReadBack x y) : keyVars T y = keyVars T x := by
  have hv := congrArg (fun l : List (String × String × String × List Val × String) => (l.filter fun p => T.key p.2.1).map Prod.fst) h.vars
  simp only [List.filter_map, List.map_map, Function.comp_def] at hv
  exact hv

theorem readBack_calc {x y : Entity} (h : ReadBack x y) (hl : y.lti = x.lti) : calcEnt y = calcEnt x := by
  unfold calcEnt
  rw [h.id, h.index, h.timeIndex, h.secondary, h.df, hl]

/-- C83. An entity set that is written and read back gives the same result as the original in every call of `dfs`: the same features, the
same matrix or the same error, for all primitives, options, cutoff times and ways of execution. Missing: entity sets that are not
`Describable` (see the violations of C15), and last time indexes that are not as `add_last_time_indexes` makes them. -/
theorem C83_reloaded_partial (lib : Lib) (json : Json) (time : TimeType) (es : ESet) (h : Describable lib json time es) (hd : Dicts es)
    (frames : String → DataFrame) (hf : ∀ x ∈ es.entities, frames x.id = x.df) (order : List String → List String)
    (hord : ∀ l, (order l).Perm l)
    (hlti : (∃ x ∈ es.entities, x.lti ≠ none) → ChildrenEnd es ∧ Orderly es ∧ ∀ x ∈ es.entities, ∀ l, x.lti = some l → LtiOk es x l) :
    ∃ n es', (∀ fuel, n ≤ fuel → rebuild lib json order fuel (describe es) frames = some (es', none)) ∧
      ∀ (L : Lang) (equalScalar : Val → Prim) (T : VarClasses) (a : DfsArgs),
        dfsFeaturesOn L equalScalar T es' a = dfsFeaturesOn L equalScalar T es a ∧
        ∀ (R : Reading) (c : CfmArgs), dfsOn L equalScalar T R es' a c = dfsOn L equalScalar T R es a c := by
  obtain ⟨n, es', h1, hrels, hlen, hback, hdesc, _, _, hl⟩ := C15_round_trip_partial lib json time es h hd frames hf order hord fun hx => (hlti hx).1
  refine ⟨n, es', h1, ?_⟩
  -- every entity is found
  have hfound : ∀ x ∈ es.entities, ∃ y, es'.get? x.id = some y ∧ ReadBack x y ∧ y.lti = x.lti := by
    intro x hx
    obtain ⟨y, hy, hb⟩ := hback x hx
    refine ⟨y, hy, hb, ?_⟩
    by_cases hany : ∃ x ∈ es.entities, x.lti ≠ none
    · obtain ⟨_, ho, hok⟩ := hlti hany
      obtain ⟨y', hy', he⟩ := hl ho hok x hx
      rw [hy] at hy'
      rw [Option.some.inj hy', he]
    · have : x.lti = none := Classical.byContradiction fun hc => hany ⟨x, hx, hc⟩
      rw [this, hb.lti, this]
  -- no other entity is found
  have hids : ∀ e, e ∈ es'.entities.map Entity.id → e ∈ es.entities.map Entity.id := by
    intro e he
    have hp : ∀ s : ESet, e ∈ s.entities.map Entity.id ↔ e ∈ (describe s).entities.map EntDesc.id := by
      intro s
      have := (isort_perm (fun a b : EntDesc => decide (a.id ≤ b.id)) (s.entities.map describeEntity)).map EntDesc.id
      unfold describe
      dsimp only
      rw [this.mem_iff, List.map_map]
      rfl
    rw [hp, hdesc, ← hp] at he
    exact he
  have hself : ∀ x ∈ es.entities, es.get? x.id = some x := by
    intro x hx
    unfold ESet.get?
    cases hg : es.entities.find? fun y => y.id == x.id with
    | none => simpa using (List.find?_eq_none.mp hg) x hx
    | some y =>
      have hy := List.mem_of_find?_eq_some hg
      have hyid : y.id = x.id := by simpa using List.find?_some hg
      rw [eq_of_nodup_map h.schema.ids hy hx hyid]
  have hget : ∀ e, (es'.get? e = none ∧ es.get? e = none) ∨ ∃ x y, es.get? e = some x ∧ es'.get? e = some y ∧ ReadBack x y ∧ y.lti = x.lti := by
    intro e
    by_cases he : e ∈ es.entities.map Entity.id
    · obtain ⟨x, hx, rfl⟩ := List.mem_map.mp he
      obtain ⟨y, hy, hb⟩ := hfound x hx
      exact .inr ⟨x, y, hself x hx, hy, hb⟩
    · refine .inl ⟨?_, ?_⟩
      · cases hg : es'.get? e with
        | none => rfl
        | some y => exact absurd (hids e ((get?_mem hg).2 ▸ List.mem_map_of_mem (get?_mem hg).1)) he
      · cases hg : es.get? e with
        | none => rfl
        | some y => exact absurd ((get?_mem hg).2 ▸ List.mem_map_of_mem (get?_mem hg).1) he
  intro L equalScalar T a
  have hsf : SameFound (es.entities.map (synthEnt T)) (es'.entities.map (synthEnt T)) := by
    refine ⟨fun e => ?_, by simp [hlen]⟩
    have hfm : ∀ s : ESet, ((s.entities.map (synthEnt T)).find? fun d => d.id == e) = (s.get? e).map (synthEnt T) := by
      intro s
      rw [List.find?_map]
      rfl
    rw [hfm, hfm]
    rcases hget e with ⟨h1, h2⟩ | ⟨x, y, h1, h2, hb, _⟩
    · rw [h1, h2]
    · rw [h1, h2]
      simp only [Option.map_some, readBack_synth hb]
  have hfeat : dfsFeaturesOn L equalScalar T es' a = dfsFeaturesOn L equalScalar T es a := by
    unfold dfsFeaturesOn
    rw [hrels]
    exact dfsFeatures_found L equalScalar hsf es.rels a
  refine ⟨hfeat, fun R c => ?_⟩
  have henv : calcEnv T es' c.env = calcEnv T es c.env := by
    unfold calcEnv
    have he : (fun e => (es'.get? e).map calcEnt) = fun e => (es.get? e).map calcEnt := by
      funext e
      rcases hget e with ⟨h1, h2⟩ | ⟨x, y, h1, h2, hb, hl⟩
      · rw [h1, h2]
      · rw [h1, h2]; simp only [Option.map_some, readBack_calc hb hl]
    have hk : (fun e => ((es'.get? e).map (keyVars T)).getD []) = fun e => ((es.get? e).map (keyVars T)).getD [] := by
      funext e
      rcases hget e with ⟨h1, h2⟩ | ⟨x, y, h1, h2, hb, _⟩
      · rw [h1, h2]
      · rw [h1, h2]; simp only [Option.map_some, readBack_keys hb]
    rw [hrels, he, hk]
  unfold dfsOn dfsMatrix
  rw [henv]
  unfold dfsFeaturesOn at hfeat
  rw [hrels] at hfeat
  have : (calcEnv T es c.env).rels = es.rels := rfl
  rw [this, hfeat]

end FT
