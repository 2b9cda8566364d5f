import Verif.Lemmas.SavedDfs
import Verif.Props.FeatureFile
import Verif.Props.Reloaded
import Verif.Props.Pipeline
/-! # C84: the features of `dfs`, saved and loaded, do what they did before -/
namespace FT
open Spec

theorem varIn_found {T : VarClasses} {es desc : ESet} (h : HasVars es desc) : ∀ x ∈ es.entities, ∀ v ∈ x.vars,
    (varIn (desc.entities.map (synthEnt T)) x.id v.id).map DVar.type = some (T.cls v.type) := by
  intro x hx w hw
  obtain ⟨y, hy, hvars⟩ := h x hx
  obtain ⟨u, hu, ht⟩ := hvars w hw
  unfold varIn
  have h1 : ((desc.entities.map (synthEnt T)).find? fun d => d.id == x.id) = some (synthEnt T y) := by
    rw [List.find?_map]
    simp only [Function.comp_def, synthEnt] at hy ⊢
    rw [hy]
    rfl
  rw [h1]
  simp only [synthEnt, List.find?_map, Function.comp_def, hu, Option.map_some, ht]

/-- C84. Whatever a feature of a call of `dfs` is made of is a feature of the entity set, as the constructors make it: variables that are
there with their types, inputs of one entity, paths down relationships of the entity set that lead from the entity of the feature to that
of its inputs; its primitive is one of the call. -/
theorem C84_well_formed (L : Lang) (equalScalar : Val → Prim) (T : VarClasses) (hL : ∀ l, (L.setOrder l).Perm l) (es : ESet) (a : DfsArgs)
    (hseeds : SeedsMadeOn T.cls es a.seeds) (fs : List DFeat) (hfs : dfsFeaturesOn L equalScalar T es a = .ok fs) :
    ∀ f ∈ fs, ∀ g, MadeOf f g → MadeOn T.cls es g ∧ ∀ p, UsesPrim g p → PrimOfCall equalScalar es a p := by
  obtain ⟨S, hc, hb⟩ := dfs_built hL hfs
  intro f hf g hg
  have := made_part hg (.inl (hb f hf).1)
  exact ⟨part_made hc hseeds this, fun p hp => part_prim hc this hp⟩

/-- C84. The features that `dfs` returns can be saved, and are loaded as the same features, with any entity set that has the variables
(such as the description stored with them). -/
theorem C84_features_partial (L : Lang) (equalScalar : Val → Prim) (T : VarClasses) (P : Prim → PInst) (Q : PInst → Prim) (root : ClassTree)
    (hL : ∀ l, (L.setOrder l).Perm l) (es : ESet) (hlinks : LinksThere es) (a : DfsArgs) (hseeds : SeedsMadeOn T.cls es a.seeds)
    (hprims : PrimsStorable P Q root (PrimOfCall equalScalar es a)) (fs : List DFeat) (hfs : dfsFeaturesOn L equalScalar T es a = .ok fs)
    (hne : fs ≠ []) (htold : FeaturesTold fs) (hgroup : GroupedByOther fs) :
    ∃ file, saveFeatures (fs.map (storedFeat P)) = .ok file ∧
      ∃ enough, ∀ limit, enough ≤ limit → ∀ desc, HasVars es desc → loadOn Q T root limit desc file = .ok fs := by
  have hmade := C84_well_formed L equalScalar T hL es a hseeds fs hfs
  refine ⟨⟨(fs.map (storedFeat P)).map SFeat.uname, (fs.map (storedFeat P)).foldl serializeFeature []⟩, by simp [saveFeatures, hne],
    SFeat.heightL (fs.map (storedFeat P)), ?_⟩
  intro limit hlim desc hdesc
  have hvar := varIn_found (T := T) hdesc
  have hthere : ∀ x ∈ es.entities, ∀ v ∈ x.vars, (varIn (desc.entities.map (synthEnt T)) x.id v.id).isSome = true := by
    intro x hx v hv
    have := hvar x hx v hv
    cases h : varIn (desc.entities.map (synthEnt T)) x.id v.id with
    | none => rw [h] at this; cases this
    | some _ => rfl
  have hrels : ∀ r ∈ es.rels, RelThere (fun e v => (varIn (desc.entities.map (synthEnt T)) e v).isSome) r := by
    intro r hr
    obtain ⟨⟨x, hx, hxe, v, hv, hve⟩, ⟨y, hy, hye, w, hw, hwe⟩⟩ := hlinks r hr
    refine ⟨?_, ?_⟩
    · rw [← hxe, ← hve]; exact hthere x hx v hv
    · rw [← hye, ← hwe]; exact hthere y hy w hw
  -- what the stored features use
  have huses : ∀ s ∈ fs.map (storedFeat P), ∀ g, SUses s g → ∃ f ∈ fs, ∃ d, MadeOf f d ∧ g = storedFeat P d := by
    intro s hs g hg
    obtain ⟨f, hf, rfl⟩ := List.mem_map.mp hs
    obtain ⟨d, hd, rfl⟩ := stored_uses hg f rfl
    exact ⟨f, hf, d, hd, rfl⟩
  have hload := roundtrip_height (fun e v => (varIn (desc.entities.map (synthEnt T)) e v).isSome) root (fs.map (storedFeat P))
    (by
      intro s hs s' hs' g g' hg hg' e
      obtain ⟨f, hf, d, hd, rfl⟩ := huses s hs g hg
      obtain ⟨f', hf', d', hd', rfl⟩ := huses s' hs' g' hg'
      rw [stored_entity, stored_entity, stored_name, stored_name] at e
      rw [htold f hf f' hf' d d' hd hd' e])
    (by
      intro s hs g hg
      obtain ⟨f, hf, d, hd, rfl⟩ := huses s hs g hg
      exact made_stored hthere hrels (hmade f hf d hd).1)
    (by
      intro s hs g p hg hp
      obtain ⟨f, hf, d, hd, rfl⟩ := huses s hs g hg
      obtain ⟨q, hq, rfl⟩ := stored_prim hp
      exact hprims.found q ((hmade f hf d hd).2 q hq))
    (by
      intro s hs g hg p init k hk hb
      obtain ⟨f, hf, d, hd, rfl⟩ := huses s hs g hg
      rw [stored_kind] at hk
      rw [stored_bases] at hb
      have hinj : ∀ u ∈ d.bases, ∀ u' ∈ d.bases, storedFeat P u = storedFeat P u' → u = u' := by
        intro u hu u' hu' e
        refine htold f hf f hf u u' (made_trans hd (.dep (by simp) (by simp [hu]) (.self (by simp)))) (made_trans hd (.dep (by simp) (by simp [hu']) (.self (by simp)))) ?_
        rw [← stored_entity (P := P) u, ← stored_name (P := P) u, e, stored_entity, stored_name]
      obtain ⟨q, hq⟩ : ∃ q, d.kind = .groupby q := by
        cases h : d.kind <;> rw [h] at hk <;> simp [storedKind] at hk
        exact ⟨_, rfl⟩
      rcases List.eq_nil_or_concat d.bases with h | ⟨t, k', h⟩
      · rw [h] at hb; simp at hb
      · have hnot := hgroup f hf d hd q t k' hq (by simpa using h)
        rw [h] at hb
        simp only [List.concat_eq_append, List.map_append, List.map_cons, List.map_nil] at hb
        obtain ⟨h1, h2⟩ := List.append_inj' hb rfl
        cases h2
        rw [← h1]
        intro hm
        obtain ⟨u, hu, e⟩ := List.mem_map.mp hm
        have := hinj u (by rw [h]; simp [hu]) k' (by rw [h]; simp) e
        exact hnot (this ▸ hu))
    limit hlim
  unfold loadOn
  rw [hload]
  simp only [Except.map, loadedFeats_map, List.map_map]
  congr 1
  rw [List.map_congr_left (g := id)]
  · simp
  · intro f hf
    exact loaded_stored f fun g hg => made_loaded hvar (fun p hp => hprims.same p ((hmade f hf g hg).2 p hp)) (hmade f hf g hg).1

/-- C84. The matrix of the loaded features, on any data of the same schema, is the one `dfs` itself gives on that data: same columns,
rows and values, or the same error. -/
theorem C84_matrix_partial (L : Lang) (equalScalar : Val → Prim) (T : VarClasses) (P : Prim → PInst) (Q : PInst → Prim) (root : ClassTree)
    (hL : ∀ l, (L.setOrder l).Perm l) (es : ESet) (hlinks : LinksThere es) (a : DfsArgs) (hseeds : SeedsMadeOn T.cls es a.seeds)
    (hprims : PrimsStorable P Q root (PrimOfCall equalScalar es a)) (fs : List DFeat) (hfs : dfsFeaturesOn L equalScalar T es a = .ok fs)
    (hne : fs ≠ []) (htold : FeaturesTold fs) (hgroup : GroupedByOther fs) :
    ∃ file, saveFeatures (fs.map (storedFeat P)) = .ok file ∧
      ∃ enough, ∀ limit, enough ≤ limit → ∀ desc, HasVars es desc → ∀ data, SameSchema es data → ∀ (R : Reading) (c : CfmArgs),
        matrixFromFile L Q T R root limit desc data file c = dfsOn L equalScalar T R data a c := by
  obtain ⟨file, h1, enough, h2⟩ := C84_features_partial L equalScalar T P Q root hL es hlinks a hseeds hprims fs hfs hne htold hgroup
  refine ⟨file, h1, enough, ?_⟩
  intro limit hlim desc hdesc data hdata R c
  have := C82_features L equalScalar T es data hdata a
  rw [hfs] at this
  unfold matrixFromFile
  rw [h2 limit hlim desc hdesc, dfsOn_self, this]
  rfl

/-- C84. The description of the entity set, written and read back, is one the features can be loaded with. -/
theorem C84_description_partial (lib : Lib) (json : Json) (time : TimeType) (es : ESet) (h : Describable lib json time es) (hd : Dicts es)
    (frames : String → DataFrame) (hf : ∀ x ∈ es.entities, frames x.id = x.df) (order : List String → List String)
    (hord : ∀ l, (order l).Perm l) (hlti : (∃ x ∈ es.entities, x.lti ≠ none) → ChildrenEnd es) :
    ∃ n desc, (∀ fuel, n ≤ fuel → rebuild lib json order fuel (describe es) frames = some (desc, none)) ∧ HasVars es desc := by
  obtain ⟨n, desc, h1, _, _, hback, _⟩ := C15_round_trip_partial lib json time es h hd frames hf order hord hlti
  refine ⟨n, desc, h1, ?_⟩
  intro x hx
  obtain ⟨y, hy, hb⟩ := hback x hx
  refine ⟨y, hy, ?_⟩
  intro v hv
  have hids : (y.vars.map Var.id) = x.vars.map Var.id := by
    have := congrArg (List.map fun p : String × String × String × List Val × String => p.1) hb.vars
    simpa only [List.map_map, Function.comp_def] using this
  have hm : (v.id, v.type) ∈ y.vars.map fun w => (w.id, w.type) := by
    have := congrArg (List.map fun p : String × String × String × List Val × String => (p.1, p.2.1)) hb.vars
    simp only [List.map_map, Function.comp_def] at this
    rw [this]
    exact List.mem_map_of_mem (f := fun v : Var => (v.id, v.type)) hv
  obtain ⟨w, hw, e⟩ := List.mem_map.mp hm
  cases hfind : y.vars.find? fun w => w.id == v.id with
  | none =>
    have := List.find?_eq_none.mp hfind w hw
    simp [(Prod.mk.inj e).1] at this
  | some u =>
    refine ⟨u, rfl, ?_⟩
    have hu : u.id = v.id := by simpa using List.find?_some hfind
    have hnd : (y.vars.map Var.id).Nodup := by rw [hids]; exact (h.entities x hx).varIds
    rw [eq_of_nodup_map hnd (List.mem_of_find?_eq_some hfind) hw (hu.trans (Prod.mk.inj e).1.symm)]
    exact (Prod.mk.inj e).2

end FT
