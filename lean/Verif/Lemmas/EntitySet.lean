import Verif.Spec.EntitySet
import Verif.Lemmas.Query
import Verif.Lemmas.Sort
/-! # Lemmas about entity sets and their histories -/
namespace FT
open Spec

/-- Ids and indexes of the entities. -/
def ESet.sig (es : ESet) : List (String × String) := es.entities.map fun x => (x.id, x.index)

theorem ids_of_sig (es : ESet) : es.entities.map Entity.id = es.sig.map Prod.fst := by
  simp [ESet.sig, Function.comp_def]

theorem get?_mem {es : ESet} {e : String} {x : Entity} (h : es.get? e = some x) : x ∈ es.entities ∧ x.id = e := by
  unfold ESet.get? at h
  exact ⟨List.mem_of_find?_eq_some h, by simpa using List.find?_some h⟩

theorem get?_of_mem {es : ESet} (hn : (es.entities.map Entity.id).Nodup) {x : Entity} (hx : x ∈ es.entities) :
    es.get? x.id = some x := by
  unfold ESet.get?
  generalize es.entities = l at hn hx
  induction l with
  | nil => cases hx
  | cons a l ih =>
    simp only [List.map_cons, List.nodup_cons] at hn
    rcases List.mem_cons.mp hx with rfl | hx
    · simp
    · have : a.id ≠ x.id := fun h => hn.1 (h ▸ List.mem_map_of_mem hx)
      rw [List.find?_cons_of_neg (by simpa using this)]
      exact ih hn.2 hx

theorem schemaOk_iff (es : ESet) : SchemaOk es ↔
    (es.sig.map Prod.fst).Nodup ∧ es.rels.Nodup ∧
      ∀ r ∈ es.rels, (r.parentE, r.parentV) ∈ es.sig ∧ ∃ i, (r.childE, i) ∈ es.sig ∧ i ≠ r.childV := by
  constructor
  · intro h
    refine ⟨by rw [← ids_of_sig]; exact h.ids, h.once, fun r hr => ?_⟩
    obtain ⟨p, hp, c, hc, h1, h2, h3, h4⟩ := h.linked r hr
    exact ⟨List.mem_map.mpr ⟨p, hp, by rw [h1, h3]⟩, c.index, List.mem_map.mpr ⟨c, hc, by rw [h2]⟩, h4⟩
  · rintro ⟨h1, h2, h3⟩
    refine ⟨by rw [ids_of_sig]; exact h1, h2, fun r hr => ?_⟩
    obtain ⟨hp, i, hc, hi⟩ := h3 r hr
    obtain ⟨p, hp, he⟩ := List.mem_map.mp hp
    obtain ⟨c, hc, he'⟩ := List.mem_map.mp hc
    simp only [Prod.mk.injEq] at he he'
    exact ⟨p, hp, c, hc, he.1, he'.1, he.2, by rw [he'.2]; exact hi⟩

theorem schemaOk_congr {es es' : ESet} (h : SchemaOk es) (hs : es'.sig = es.sig) (hr : es'.rels = es.rels) : SchemaOk es' := by
  rw [schemaOk_iff] at h ⊢; rw [hs, hr]; exact h

theorem sig_modify {es : ESet} {e : String} {f : Entity → Entity}
    (hf : ∀ x ∈ es.entities, x.id = e → (f x).id = x.id ∧ (f x).index = x.index) : (es.modify e f).sig = es.sig := by
  unfold ESet.sig ESet.modify
  simp only [List.map_map]
  apply List.map_congr_left
  intro x hx
  simp only [Function.comp]
  split
  · rename_i h
    have := hf x hx (by simpa using h)
    rw [this.1, this.2]
  · rfl

theorem sig_modify_const {es : ESet} {e : String} {x y : Entity} (hn : (es.entities.map Entity.id).Nodup)
    (hx : es.get? e = some x) (hid : y.id = x.id) (hix : y.index = x.index) : (es.modify e fun _ => y).sig = es.sig := by
  apply sig_modify
  intro z hz he
  have := get?_of_mem hn hz
  rw [he, hx] at this
  cases this
  exact ⟨hid, hix⟩

@[simp] theorem rels_modify (es : ESet) (e : String) (f : Entity → Entity) : (es.modify e f).rels = es.rels := rfl
@[simp] theorem cache_modify (es : ESet) (e : String) (f : Entity → Entity) : (es.modify e f).cache = es.cache := rfl
@[simp] theorem timeType_modify (es : ESet) (e : String) (f : Entity → Entity) : (es.modify e f).timeType = es.timeType := rfl

theorem convertType_keeps {x y : Entity} {v t : String} (h : x.convertType v t = .ok y) :
    y.id = x.id ∧ y.index = x.index ∧ y.df = x.df ∧ y.vars.map Var.id = x.vars.map Var.id ∧ y.timeIndex = x.timeIndex ∧
      y.secondary = x.secondary ∧ y.created = x.created ∧ y.lti = x.lti := by
  unfold Entity.convertType at h
  split at h
  · cases h
  · cases h
    refine ⟨rfl, rfl, rfl, ?_, rfl, rfl, rfl, rfl⟩
    simp only [List.map_map]
    apply List.map_congr_left
    intro z _
    simp only [Function.comp]
    split <;> rfl

theorem setIndex_keeps {x y : Entity} {i : String} (h : x.setIndex i = .ok y) :
    y.id = x.id ∧ y.index = i ∧ y.df = x.df ∧ y.vars.map Var.id = x.vars.map Var.id ∧ y.timeIndex = x.timeIndex ∧
      y.created = x.created ∧ (x.df.rows.map fun r => r i).Nodup := by
  unfold Entity.setIndex at h
  split at h
  · split at h
    · cases h
    · rename_i hd
      split at h
      · rename_i z hz
        cases h
        obtain ⟨h1, _, h3, h4, h5, _, h7, _⟩ := convertType_keeps hz
        refine ⟨h1, rfl, h3, h4, h5, h7, ?_⟩
        have := Classical.not_not.mp hd
        rw [← this]
        exact nodup_dedup _
      · cases h
  · cases h

theorem isort_rows_perm (t i : String) (rows : List Row) : (sortRows t i rows).Perm rows := isort_perm _ _

theorem setTimeIndex_keeps {lib : Lib} {tt : Option TimeType} {x y : Entity} {t : String} {sorted : Bool}
    (h : (x.setTimeIndex lib tt t sorted).2 = .ok y) :
    y.id = x.id ∧ y.index = x.index ∧ y.df.rows.Perm x.df.rows ∧ y.df.cols = x.df.cols ∧ (sorted = true → y.df = x.df) ∧
      y.vars.map Var.id = x.vars.map Var.id ∧ y.timeIndex = some t ∧ y.created = x.created := by
  unfold Entity.setTimeIndex at h
  split at h
  · split at h
    · cases h
    · split at h
      · simp only at h
        split at h
        · rename_i z hz
          cases h
          obtain ⟨h1, h2, h3, h4, _, _, h7, _⟩ := convertType_keeps hz
          refine ⟨h1, h2, ?_, ?_, fun hs => ?_, h4, rfl, h7⟩
          · simp only; split
            · exact .refl _
            · exact isort_rows_perm _ _ _
          · simp only; split <;> rfl
          · simp only [hs, if_true]
        · cases h
      · cases h
  · cases h

theorem setSecondary_keeps {lib : Lib} {tt : Option TimeType} {x y : Entity} {sec : List (String × List String)}
    (h : x.setSecondary lib tt sec = .ok y) :
    y = { x with secondary := addOwnColumn sec } := by
  unfold Entity.setSecondary at h
  split at h
  · cases h
  · cases h; rfl

theorem deleteVars_keeps (x : Entity) (vs : List String) :
    (x.deleteVars vs).1.id = x.id ∧ (x.deleteVars vs).1.index = x.index ∧ (x.deleteVars vs).1.df.rows = x.df.rows := by
  unfold Entity.deleteVars
  split
  · exact ⟨rfl, rfl, rfl⟩
  · split <;> exact ⟨rfl, rfl, rfl⟩

/-- What `Entity.__init__` does when it succeeds. -/
theorem newEntity_ok {lib : Lib} {es : ESet} {a : EntityArgs} {tt : Option TimeType} {x : Entity}
    (h : newEntity lib es a = (tt, .ok x)) :
    ∃ created index df link vars df',
      createIndex a.index a.makeIndex a.df = .ok (created, index, df) ∧ linkedVars es a.id es.rels = .ok link ∧
      createVars lib link df a.types index a.timeIndex a.secondary = .ok (vars, df') ∧
      x.id = a.id ∧ x.index = index ∧ x.created = created ∧ x.timeIndex = a.timeIndex ∧ x.secondary = addOwnColumn a.secondary ∧
      x.df.cols = vars.map Var.id ∧ x.df.rows.Perm df'.rows ∧ (a.timeIndex = none ∨ a.sorted = true → x.df.rows = df'.rows) ∧
      (df'.rows.map fun r => r index).Nodup ∧ validateParams a.df a.timeIndex = none := by
  unfold newEntity at h
  split at h
  · cases h
  · rename_i hv
    split at h
    · cases h
    · rename_i created index df hci
      split at h
      · cases h
      · rename_i link hl
        split at h
        · cases h
        · rename_i vars df' hcv
          refine ⟨created, index, df, link, vars, df', hci, hl, hcv, ?_⟩
          unfold finishEntity at h
          split at h
          · cases h
          · rename_i y hy
            obtain ⟨h1, h2, h3, h4, h5, h6, h7⟩ := setIndex_keeps hy
            simp only at h
            cases hti : a.timeIndex with
            | none =>
              simp only [hti] at h
              rw [Prod.mk.injEq] at h
              have := setSecondary_keeps h.2
              subst this
              simp only [h1, h2, h3, h5, h6]
              exact ⟨trivial, trivial, trivial, trivial, trivial, trivial, .refl _, fun _ => trivial, h7, hti ▸ hv⟩
            | some t =>
              simp only [hti] at h
              split at h
              · rw [Prod.mk.injEq] at h; cases h.2
              · rename_i z hz
                obtain ⟨g1, g2, g3, g4, g5, g6, g7, g8⟩ := setTimeIndex_keeps hz
                rw [Prod.mk.injEq] at h
                have := setSecondary_keeps h.2
                subst this
                simp only [g1, g2, g4, g7, g8, h1, h2, h3, h6]
                refine ⟨trivial, trivial, trivial, trivial, trivial, trivial, ?_, ?_, h7, hti ▸ hv⟩
                · rw [h3] at g3; exact g3
                · rintro (h | h)
                  · cases h
                  · rw [g5 h, h3]

theorem setEntity_new {l : List Entity} {x : Entity} (h : x.id ∉ l.map Entity.id) : setEntity l x = l ++ [x] := by
  unfold setEntity
  rw [if_neg]
  simp only [List.any_eq_true, not_exists, beq_iff_eq]
  rintro y ⟨hy, he⟩
  exact h (he ▸ List.mem_map_of_mem hy)

/-- `entity_from_dataframe` when it fails: entities, relationships and metadata are as before. -/
theorem create_failed {lib : Lib} {es : ESet} {a : EntityArgs} (h : (entityFromDataframe lib es a).2 ≠ none) :
    (entityFromDataframe lib es a).1 = { es with timeType := (entityFromDataframe lib es a).1.timeType } := by
  unfold entityFromDataframe at h ⊢
  split
  · rfl
  · split
    · rfl
    · rename_i hk
      simp [*] at h

/-- `entity_from_dataframe` when it succeeds. -/
theorem create_ok {lib : Lib} {es : ESet} {a : EntityArgs} (h : (entityFromDataframe lib es a).2 = none) :
    ∃ tt x, newEntity lib es a = (tt, .ok x) ∧ entityArgsError a = none ∧
      (entityFromDataframe lib es a).1 = { es with entities := setEntity es.entities x, timeType := tt, cache := none } := by
  unfold entityFromDataframe at h ⊢
  split at h
  · cases h
  · rename_i ha
    split at h
    · cases h
    · rename_i tt x hx
      exact ⟨tt, x, hx, ha, by simp [hx, ha]⟩

theorem fixEmptyDtype_sig (lib : Lib) (es : ESet) (pe pv ce cv : String) :
    (fixEmptyDtype lib es pe pv ce cv).sig = es.sig ∧ (fixEmptyDtype lib es pe pv ce cv).rels = es.rels := by
  unfold fixEmptyDtype
  split
  · exact ⟨rfl, rfl⟩
  · refine ⟨sig_modify fun x _ _ => ?_, rfl⟩
    split <;> exact ⟨rfl, rfl⟩

theorem ensureType_sig (es : ESet) (e v t : String) : (ensureType es e v t).sig = es.sig ∧ (ensureType es e v t).rels = es.rels :=
  ⟨sig_modify fun _ _ _ => ⟨rfl, rfl⟩, rfl⟩

theorem sig_of_get? {es : ESet} {e : String} {x : Entity} (h : es.get? e = some x) : (e, x.index) ∈ es.sig := by
  obtain ⟨h1, h2⟩ := get?_mem h
  exact List.mem_map.mpr ⟨x, h1, by rw [h2]⟩

/-- What `add_relationship` does to ids, indexes and the list. -/
theorem relate_effect (lib : Lib) (es : ESet) (r : Relationship) :
    (addRelationship lib es r).1.sig = es.sig ∧
    ((addRelationship lib es r).1.rels = es.rels ∨
      (addRelationship lib es r).2 = none ∧ (addRelationship lib es r).1.rels = es.rels ++ [r] ∧ r ∉ es.rels ∧
      (addRelationship lib es r).1.cache = none ∧
      (r.parentE, r.parentV) ∈ es.sig ∧ ∃ i, (r.childE, i) ∈ es.sig ∧ i ≠ r.childV) := by
  unfold addRelationship
  split
  · rename_i p c hp hc
    split
    · exact ⟨rfl, .inl rfl⟩
    · rename_i hv
      split
      · exact ⟨rfl, .inl rfl⟩
      · rename_i hpi
        split
        · exact ⟨rfl, .inl rfl⟩
        · rename_i hnc
          unfold addNewRelationship
          split
          · exact ⟨rfl, .inl rfl⟩
          · rename_i hci
            · simp only
              have hs := fixEmptyDtype_sig lib (ensureType (ensureType es r.childE r.childV "id") r.parentE r.parentV "index") r.parentE r.parentV r.childE r.childV
              have hs1 := ensureType_sig (ensureType es r.childE r.childV "id") r.parentE r.parentV "index"
              have hs2 := ensureType_sig es r.childE r.childV "id"
              split
              · exact ⟨by rw [hs.1, hs1.1, hs2.1], .inl (by rw [hs.2, hs1.2, hs2.2])⟩
              · refine ⟨?_, .inr ⟨rfl, ?_, by simpa using hnc, rfl, ?_, c.index, sig_of_get? hc, hci⟩⟩
                · show (fixEmptyDtype lib _ _ _ _ _).sig = _
                  rw [hs.1, hs1.1, hs2.1]
                · show (fixEmptyDtype lib _ _ _ _ _).rels ++ [r] = _
                  rw [hs.2, hs1.2, hs2.2]
                · have := sig_of_get? hp
                  rwa [Classical.not_not.mp hpi] at this
  · exact ⟨rfl, .inl rfl⟩

theorem relate_ok {lib : Lib} {es : ESet} (h : SchemaOk es) (r : Relationship) : SchemaOk (addRelationship lib es r).1 := by
  obtain ⟨hs, hr | ⟨_, hr, hn, _, hp, hc⟩⟩ := relate_effect lib es r
  · exact schemaOk_congr h hs hr
  · rw [schemaOk_iff] at h ⊢
    rw [hs, hr]
    refine ⟨h.1, ?_, ?_⟩
    · rw [List.nodup_append]
      refine ⟨h.2.1, by simp, fun a ha b hb => ?_⟩
      simp only [List.mem_singleton] at hb
      subst hb
      rintro rfl
      exact hn ha
    · intro s hs'
      rcases List.mem_append.mp hs' with hs' | hs'
      · exact h.2.2 s hs'
      · simp only [List.mem_singleton] at hs'
        subst hs'
        exact ⟨hp, hc⟩

theorem create_sig {lib : Lib} {es : ESet} {a : EntityArgs} (hn : a.id ∉ es.entities.map Entity.id) :
    (entityFromDataframe lib es a).1.rels = es.rels ∧
    ((entityFromDataframe lib es a).1.sig = es.sig ∨ ∃ i, (entityFromDataframe lib es a).1.sig = es.sig ++ [(a.id, i)]) := by
  cases he : (entityFromDataframe lib es a).2 with
  | some e =>
    rw [create_failed (by rw [he]; simp)]
    exact ⟨rfl, .inl rfl⟩
  | none =>
    obtain ⟨tt, x, hx, _, h⟩ := create_ok he
    rw [h]
    obtain ⟨_, _, _, _, _, _, _, _, _, hid, _⟩ := newEntity_ok hx
    refine ⟨rfl, .inr ⟨x.index, ?_⟩⟩
    simp only [ESet.sig]
    rw [setEntity_new (by rw [hid]; exact hn)]
    simp [hid]

theorem create_schemaOk {lib : Lib} {es : ESet} {a : EntityArgs} (h : SchemaOk es) (hn : a.id ∉ es.entities.map Entity.id) :
    SchemaOk (entityFromDataframe lib es a).1 := by
  obtain ⟨hr, hs | ⟨i, hs⟩⟩ := create_sig (lib := lib) hn
  · exact schemaOk_congr h hs hr
  · rw [schemaOk_iff] at h ⊢
    rw [hs, hr]
    rw [ids_of_sig] at hn
    refine ⟨?_, h.2.1, fun r hr' => ?_⟩
    · rw [List.map_append, List.nodup_append]
      refine ⟨h.1, by simp, fun x hx b hb => ?_⟩
      simp only [List.map_cons, List.map_nil, List.mem_singleton] at hb
      rintro rfl
      exact hn (hb ▸ hx)
    · obtain ⟨h1, j, h2, h3⟩ := h.2.2 r hr'
      exact ⟨List.mem_append_left _ h1, j, List.mem_append_left _ h2, h3⟩

theorem delete_effect {es : ESet} (hn : (es.entities.map Entity.id).Nodup) (e : String) (vs : List String) :
    (deleteVariables es e vs).1.sig = es.sig ∧ (deleteVariables es e vs).1.rels = es.rels ∧
      (deleteVariables es e vs).1.cache = es.cache := by
  unfold deleteVariables
  split
  · exact ⟨rfl, rfl, rfl⟩
  · rename_i x hx
    obtain ⟨h1, h2, _⟩ := deleteVars_keeps x vs
    exact ⟨sig_modify_const hn hx h1 h2, rfl, rfl⟩

theorem convert_effect {es : ESet} (hn : (es.entities.map Entity.id).Nodup) (e v t : String) :
    (convertVariableType es e v t).1.sig = es.sig ∧ (convertVariableType es e v t).1.rels = es.rels ∧
      (convertVariableType es e v t).1.cache = es.cache := by
  unfold convertVariableType
  split
  · exact ⟨rfl, rfl, rfl⟩
  · rename_i x hx
    split
    · rename_i y hy
      obtain ⟨h1, h2, _⟩ := convertType_keeps hy
      exact ⟨sig_modify_const hn hx h1 h2, rfl, rfl⟩
    · exact ⟨rfl, rfl, rfl⟩

theorem normFinish_schemaOk {lib : Lib} {es : ESet} (h : SchemaOk es) (a : NormArgs) : SchemaOk (normFinish lib es a).1 := by
  unfold normFinish
  have h1 := delete_effect h.ids a.base a.additional
  have hs1 : SchemaOk (deleteVariables es a.base a.additional).1 := schemaOk_congr h h1.1 h1.2.1
  split
  · rename_i es1 e he; rw [he] at hs1; exact hs1
  · rename_i es1 he
    rw [he] at hs1
    have h2 := convert_effect hs1.ids a.base a.index "id"
    have hs2 : SchemaOk (convertVariableType es1 a.base a.index "id").1 := schemaOk_congr hs1 h2.1 h2.2.1
    split
    · rename_i es2 e he2; rw [he2] at hs2; exact hs2
    · rename_i es2 he2
      rw [he2] at hs2
      have hs3 := relate_ok (lib := lib) hs2 ⟨a.new, a.index, a.base, a.index⟩
      split
      · rename_i es3 e he3; rw [he3] at hs3; exact hs3
      · rename_i es3 he3
        rw [he3] at hs3
        exact schemaOk_congr hs3 rfl rfl

theorem normEntityArgs_id {x : Entity} {a : NormArgs} {args : EntityArgs} (h : normEntityArgs x a = .ok args) : args.id = a.new := by
  unfold normEntityArgs at h
  split at h
  · cases h
  · cases h
  · cases h
  · split at h
    · cases h
    · split at h
      · cases h
      · cases h; rfl

theorem normalize_schemaOk {lib : Lib} {es : ESet} (h : SchemaOk es) (a : NormArgs) (hn : a.new ∉ es.entities.map Entity.id) :
    SchemaOk (normalizeEntity lib es a).1 := by
  unfold normalizeEntity
  split
  · exact h
  · split
    · exact h
    · split
      · exact h
      · split
        · exact h
        · rename_i args hargs
          have hc := create_schemaOk (lib := lib) h (a := args) (by rw [normEntityArgs_id hargs]; exact hn)
          split
          · rename_i es1 e he; rw [he] at hc; exact hc
          · rename_i es1 he
            rw [he] at hc
            exact normFinish_schemaOk hc a

theorem update_effect {lib : Lib} {es : ESet} (hn : (es.entities.map Entity.id).Nodup) (e : String) (df : DataFrame) (sorted : Bool) :
    (updateData lib es e df sorted).1.sig = es.sig ∧ (updateData lib es e df sorted).1.rels = es.rels := by
  unfold updateData
  split
  · exact ⟨rfl, rfl⟩
  · rename_i x hx
    split
    · exact ⟨rfl, rfl⟩
    · split
      · simp only
        split
        · exact ⟨sig_modify_const hn hx rfl rfl, rfl⟩
        · rename_i x2 hx2
          obtain ⟨h1, h2, _⟩ := setIndex_keeps hx2
          cases hti : x.timeIndex with
          | none =>
            simp only
            split
            · exact ⟨sig_modify_const hn hx h1 h2, rfl⟩
            · rename_i x4 hx4
              have := setSecondary_keeps hx4
              subst this
              exact ⟨sig_modify_const hn hx h1 h2, rfl⟩
          | some t =>
            simp only
            split
            · exact ⟨sig_modify_const hn hx h1 h2, rfl⟩
            · rename_i x3 hx3
              obtain ⟨g1, g2, _⟩ := setTimeIndex_keeps hx3
              split
              · exact ⟨sig_modify_const hn hx (g1.trans h1) (g2.trans h2), rfl⟩
              · rename_i x4 hx4
                have := setSecondary_keeps hx4
                subst this
                exact ⟨sig_modify_const hn hx (g1.trans h1) (g2.trans h2), rfl⟩
      · exact ⟨rfl, rfl⟩

theorem describe_effect (es : ESet) (e v d : String) :
    (setDescription es e v d).1.sig = es.sig ∧ (setDescription es e v d).1.rels = es.rels := by
  unfold setDescription
  split
  · exact ⟨rfl, rfl⟩
  · simp only
    split
    · exact ⟨rfl, rfl⟩
    · exact ⟨sig_modify (es := es) fun _ _ _ => ⟨rfl, rfl⟩, rfl⟩

theorem readMetadata_effect (es : ESet) :
    (readMetadata es).1.entities = es.entities ∧ (readMetadata es).1.rels = es.rels := by
  unfold readMetadata; split <;> exact ⟨rfl, rfl⟩

theorem op_schemaOk {lib : Lib} {es : ESet} (h : SchemaOk es) (op : Op) (hn : op.NewId es) : SchemaOk (op.run lib es).1 := by
  cases op with
  | create a => exact create_schemaOk h hn
  | relate r => exact relate_ok h r
  | normalize a => exact normalize_schemaOk h a hn
  | delete e vs => exact schemaOk_congr h (delete_effect h.ids e vs).1 (delete_effect h.ids e vs).2.1
  | convert e v t => exact schemaOk_congr h (convert_effect h.ids e v t).1 (convert_effect h.ids e v t).2.1
  | update e df s => exact schemaOk_congr h (update_effect h.ids e df s).1 (update_effect h.ids e df s).2
  | describe e v d => exact schemaOk_congr h (describe_effect es e v d).1 (describe_effect es e v d).2
  | readMetadata => exact schemaOk_congr h (by simp [ESet.sig, Op.run, (readMetadata_effect es).1]) (readMetadata_effect es).2

theorem reached_schemaOk {lib : Lib} {es : ESet} (h : Reached lib (fun es op => op.NewId es) es) : SchemaOk es := by
  induction h with
  | start => exact ⟨by simp [ESet.empty], by simp [ESet.empty], by simp [ESet.empty]⟩
  | call h op hn ih => exact op_schemaOk ih op hn

/-! ### Index values -/

theorem indexUnique_modify {es : ESet} {e : String} {f : Entity → Entity} (h : IndexUnique es)
    (hf : ∀ x ∈ es.entities, x.id = e → ((f x).df.rows.map fun r => r (f x).index).Nodup) : IndexUnique (es.modify e f) := by
  intro y hy
  obtain ⟨x, hx, rfl⟩ := List.mem_map.mp hy
  split
  · rename_i he; exact hf x hx (by simpa using he)
  · exact h x hx

theorem indexUnique_same {es : ESet} {e : String} {f : Entity → Entity} (h : IndexUnique es)
    (hf : ∀ x ∈ es.entities, x.id = e → (f x).df.rows = x.df.rows ∧ (f x).index = x.index) : IndexUnique (es.modify e f) :=
  indexUnique_modify h fun x hx he => by rw [(hf x hx he).1, (hf x hx he).2]; exact h x hx

theorem setEntity_mem {l : List Entity} {x y : Entity} (h : y ∈ setEntity l x) : y ∈ l ∨ y = x := by
  unfold setEntity at h
  split at h
  · obtain ⟨z, hz, rfl⟩ := List.mem_map.mp h
    split
    · exact .inr rfl
    · exact .inl hz
  · simpa using h

theorem newEntity_unique {lib : Lib} {es : ESet} {a : EntityArgs} {tt : Option TimeType} {x : Entity}
    (h : newEntity lib es a = (tt, .ok x)) : (x.df.rows.map fun r => r x.index).Nodup := by
  obtain ⟨_, index, _, _, _, df', _, _, _, _, hi, _, _, _, _, hp, _, hn, _⟩ := newEntity_ok h
  rw [hi]
  exact (hp.map fun r => r index).nodup_iff.mpr hn

theorem create_indexUnique {lib : Lib} {es : ESet} {a : EntityArgs} (h : IndexUnique es) : IndexUnique (entityFromDataframe lib es a).1 := by
  cases he : (entityFromDataframe lib es a).2 with
  | some e => rw [create_failed (by rw [he]; simp)]; exact h
  | none =>
    obtain ⟨tt, x, hx, _, h'⟩ := create_ok he
    rw [h']
    intro y hy
    rcases setEntity_mem hy with hy | rfl
    · exact h y hy
    · exact newEntity_unique hx

theorem relate_indexUnique {lib : Lib} {es : ESet} {r : Relationship} (h : IndexUnique es) : IndexUnique (addRelationship lib es r).1 := by
  unfold addRelationship
  split
  · split
    · exact h
    · split
      · exact h
      · split
        · exact h
        · unfold addNewRelationship
          have h3 : IndexUnique (fixEmptyDtype lib (ensureType (ensureType es r.childE r.childV "id") r.parentE r.parentV "index") r.parentE r.parentV r.childE r.childV) := by
            have h1 : IndexUnique (ensureType es r.childE r.childV "id") := indexUnique_same h fun _ _ _ => ⟨rfl, rfl⟩
            have h2 : IndexUnique (ensureType (ensureType es r.childE r.childV "id") r.parentE r.parentV "index") :=
              indexUnique_same h1 fun _ _ _ => ⟨rfl, rfl⟩
            unfold fixEmptyDtype
            split
            · exact h2
            · refine indexUnique_same h2 fun x _ _ => ?_
              split <;> exact ⟨rfl, rfl⟩
          split
          · exact h
          · simp only
            split
            · exact h3
            · exact h3
  · exact h

theorem delete_indexUnique {es : ESet} (h : IndexUnique es) (e : String) (vs : List String) : IndexUnique (deleteVariables es e vs).1 := by
  unfold deleteVariables
  split
  · exact h
  · rename_i x hx
    refine indexUnique_modify h fun _ _ _ => ?_
    rw [(deleteVars_keeps x vs).2.1, (deleteVars_keeps x vs).2.2]
    exact h x (get?_mem hx).1

theorem convert_indexUnique {es : ESet} (h : IndexUnique es) (e v t : String) : IndexUnique (convertVariableType es e v t).1 := by
  unfold convertVariableType
  split
  · exact h
  · rename_i x hx
    split
    · rename_i y hy
      obtain ⟨_, h2, h3, _⟩ := convertType_keeps hy
      refine indexUnique_modify h fun _ _ _ => ?_
      rw [h2, h3]
      exact h x (get?_mem hx).1
    · exact h

theorem normalize_indexUnique {lib : Lib} {es : ESet} {a : NormArgs} (h : IndexUnique es) : IndexUnique (normalizeEntity lib es a).1 := by
  unfold normalizeEntity
  split
  · exact h
  · split
    · exact h
    · split
      · exact h
      · split
        · exact h
        · rename_i args _
          have hc := create_indexUnique (lib := lib) (a := args) h
          split
          · rename_i es1 e he; rw [he] at hc; exact hc
          · rename_i es1 he
            rw [he] at hc
            unfold normFinish
            have h1 := delete_indexUnique hc a.base a.additional
            split
            · rename_i es2 e he; rw [he] at h1; exact h1
            · rename_i es2 he
              rw [he] at h1
              have h2 := convert_indexUnique h1 a.base a.index "id"
              split
              · rename_i es3 e he; rw [he] at h2; exact h2
              · rename_i es3 he
                rw [he] at h2
                have h3 := relate_indexUnique (lib := lib) (r := ⟨a.new, a.index, a.base, a.index⟩) h2
                split
                · rename_i es4 e he; rw [he] at h3; exact h3
                · rename_i es4 he; rw [he] at h3; exact h3

theorem update_indexUnique {lib : Lib} {es : ESet} (h : IndexUnique es) (e : String) (df : DataFrame) (sorted : Bool)
    (hs : (updateData lib es e df sorted).2 = none) : IndexUnique (updateData lib es e df sorted).1 := by
  unfold updateData at hs ⊢
  split
  · exact h
  · rename_i x hx
    simp only [hx] at hs
    split
    · exact h
    · rename_i hl
      rw [if_neg hl] at hs
      split
      · rename_i hv
        rw [if_pos hv] at hs
        simp only at hs ⊢
        split
        · rename_i err he; rw [he] at hs; cases hs
        · rename_i x2 hx2
          rw [hx2] at hs
          obtain ⟨_, h2, h3, _, _, _, h7⟩ := setIndex_keeps hx2
          have hu : (x2.df.rows.map fun r => r x2.index).Nodup := by rw [h3, h2]; exact h7
          cases hti : x.timeIndex with
          | none =>
            simp only [hti] at hs ⊢
            split
            · rename_i err he; rw [he] at hs; cases hs
            · rename_i x4 hx4
              have := setSecondary_keeps hx4
              subst this
              exact indexUnique_modify (es := es) h fun _ _ _ => hu
          | some t =>
            simp only [hti] at hs ⊢
            split
            · rename_i err he; rw [he] at hs; cases hs
            · rename_i x3 hx3
              rw [hx3] at hs
              simp only at hs
              obtain ⟨_, g2, g3, _⟩ := setTimeIndex_keeps hx3
              split
              · rename_i err he; rw [he] at hs; cases hs
              · rename_i x4 hx4
                have := setSecondary_keeps hx4
                subst this
                refine indexUnique_modify (es := es) h fun _ _ _ => ?_
                show (x3.df.rows.map fun r => r x3.index).Nodup
                rw [g2]
                exact (g3.map _).nodup_iff.mpr hu
      · exact h

theorem describe_indexUnique {es : ESet} (h : IndexUnique es) (e v d : String) : IndexUnique (setDescription es e v d).1 := by
  unfold setDescription
  split
  · exact h
  · have h1 : IndexUnique (es.modify e fun x => { x with vars := x.vars.map fun y => if y.id == v then { y with desc := some d } else y }) :=
      indexUnique_same h fun _ _ _ => ⟨rfl, rfl⟩
    simp only
    split
    · exact h
    · exact h1

theorem reached_indexUnique {lib : Lib} {es : ESet} (h : Reached lib (Op.UpdateSucceeds lib) es) : IndexUnique es := by
  induction h with
  | start => intro x hx; simp [ESet.empty] at hx
  | call h op hn ih =>
    cases op with
    | create a => exact create_indexUnique ih
    | relate r => exact relate_indexUnique ih
    | normalize a => exact normalize_indexUnique ih
    | delete e vs => exact delete_indexUnique ih e vs
    | convert e v t => exact convert_indexUnique ih e v t
    | update e df s => exact update_indexUnique ih e df s hn
    | describe e v d => exact describe_indexUnique ih e v d
    | readMetadata => intro x hx; rw [Op.run, (readMetadata_effect _).1] at hx; exact ih x hx

/-! ### Metadata -/

/-- The metadata is to be made anew or describes the entity set. -/
def CacheOk (es : ESet) : Prop := es.cache = none ∨ es.cache = some (describe es)

theorem cacheOk_create {lib : Lib} {es : ESet} (h : CacheOk es) (a : EntityArgs) : CacheOk (entityFromDataframe lib es a).1 := by
  cases he : (entityFromDataframe lib es a).2 with
  | some e => rw [create_failed (by rw [he]; simp)]; exact h
  | none =>
    obtain ⟨tt, x, hx, _, h'⟩ := create_ok he
    rw [h']; exact .inl rfl

theorem relate_success_cache {lib : Lib} {es : ESet} {r : Relationship} (h : (addRelationship lib es r).2 = none) :
    (addRelationship lib es r).1 = es ∨ (addRelationship lib es r).1.cache = none := by
  unfold addRelationship at h ⊢
  split
  · rename_i p c hp hc
    rw [hp, hc] at h
    simp only at h
    split
    · exact .inl rfl
    · rename_i hv
      rw [if_neg hv] at h
      split
      · exact .inl rfl
      · rename_i hi
        rw [if_neg hi] at h
        split
        · exact .inl rfl
        · rename_i hm
          rw [if_neg hm] at h
          unfold addNewRelationship at h ⊢
          split
          · exact .inl rfl
          · rename_i hci
            rw [if_neg hci, if_neg hv] at h
            · simp only at h ⊢
              split
              · rename_i hd; rw [if_pos hd] at h; cases h
              · exact .inr rfl
  · exact .inl rfl

theorem relate_cache_none {lib : Lib} {es : ESet} {r : Relationship} (h : es.cache = none) : (addRelationship lib es r).1.cache = none := by
  have hf : (fixEmptyDtype lib (ensureType (ensureType es r.childE r.childV "id") r.parentE r.parentV "index") r.parentE r.parentV r.childE r.childV).cache = none := by
    unfold fixEmptyDtype; split <;> exact h
  unfold addRelationship addNewRelationship
  split
  · split
    · exact h
    · split
      · exact h
      · split
        · exact h
        · split
          · exact h
          · simp only
            split
            · exact hf
            · rfl
  · exact h

theorem delete_cache (es : ESet) (e : String) (vs : List String) : (deleteVariables es e vs).1.cache = es.cache := by
  unfold deleteVariables; split <;> rfl

theorem convert_cache (es : ESet) (e v t : String) : (convertVariableType es e v t).1.cache = es.cache := by
  unfold convertVariableType; split
  · rfl
  · split <;> rfl

theorem normFinish_cache {lib : Lib} {es : ESet} (h : es.cache = none) (a : NormArgs) : (normFinish lib es a).1.cache = none := by
  unfold normFinish
  have h1 := delete_cache es a.base a.additional
  split
  · rename_i es1 e he; rw [he] at h1; exact h1.trans h
  · rename_i es1 he
    rw [he] at h1
    have h2 := convert_cache es1 a.base a.index "id"
    split
    · rename_i es2 e he; rw [he] at h2; exact h2.trans (h1.trans h)
    · rename_i es2 he
      rw [he] at h2
      have h3 := relate_cache_none (lib := lib) (r := ⟨a.new, a.index, a.base, a.index⟩) (h2.trans (h1.trans h))
      split
      · rename_i es3 e he; rw [he] at h3; exact h3
      · rfl

theorem cacheOk_normalize {lib : Lib} {es : ESet} (h : CacheOk es) (a : NormArgs) : CacheOk (normalizeEntity lib es a).1 := by
  unfold normalizeEntity
  split
  · exact h
  · split
    · exact h
    · split
      · exact h
      · split
        · exact h
        · rename_i args _
          have hc := cacheOk_create (lib := lib) h args
          split
          · rename_i es1 e he; rw [he] at hc; exact hc
          · rename_i es1 he
            obtain ⟨_, _, _, _, h'⟩ := create_ok (lib := lib) (es := es) (a := args) (by rw [he])
            rw [he] at h'
            simp only at h'
            exact .inl (normFinish_cache (by rw [h']) a)

theorem update_success_cache {lib : Lib} {es : ESet} {e : String} {df : DataFrame} {sorted : Bool}
    (hs : (updateData lib es e df sorted).2 = none) : (updateData lib es e df sorted).1.cache = none := by
  unfold updateData at hs ⊢
  split
  · rename_i hx; rw [hx] at hs; cases hs
  · rename_i x hx
    rw [hx] at hs
    simp only at hs ⊢
    split
    · rename_i hl; rw [if_pos hl] at hs; cases hs
    · rename_i hl
      rw [if_neg hl] at hs
      split
      · rename_i hv
        rw [if_pos hv] at hs
        split
        · rename_i err he; rw [he] at hs; cases hs
        · rename_i x2 hx2
          rw [hx2] at hs
          simp only at hs
          split
          · rename_i err he; rw [he] at hs; cases hs
          · rename_i x3 hx3
            rw [hx3] at hs
            simp only at hs
            split
            · rename_i err he; rw [he] at hs; cases hs
            · rfl
      · rename_i hv; rw [if_neg hv] at hs; cases hs

/-- Describing does not depend on time type and cached metadata. -/
theorem describe_congr {es es' : ESet} (h : es'.entities = es.entities) (hr : es'.rels = es.rels) : describe es' = describe es := by
  unfold describe; rw [h, hr]

theorem cacheOk_describe {es : ESet} (h : CacheOk es) (e v d : String) : CacheOk (setDescription es e v d).1 := by
  unfold setDescription
  split
  · exact h
  · simp only
    split
    · exact h
    · exact .inl rfl

theorem reached_cacheOk {lib : Lib} {es : ESet} (h : Reached lib (Op.Tracked lib) es) : CacheOk es := by
  induction h with
  | start => exact .inl rfl
  | call h op hn ih =>
    cases op with
    | create a => exact cacheOk_create ih a
    | relate r =>
      rcases relate_success_cache hn with h | h
      · rw [Op.run, h]; exact ih
      · exact .inl h
    | normalize a => exact cacheOk_normalize ih a
    | delete e vs => exact hn.elim
    | convert e v t => exact hn.elim
    | update e df s => exact .inl (update_success_cache hn)
    | describe e v d => exact cacheOk_describe ih e v d
    | readMetadata =>
      rename_i es'
      show CacheOk (readMetadata es').1
      unfold readMetadata
      split
      · exact ih
      · exact .inr rfl

end FT
