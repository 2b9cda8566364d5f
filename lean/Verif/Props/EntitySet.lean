import Verif.Lemmas.Normalize
/-! # Properties of entity sets under histories of calls: C04, C05, C06, C07 -/
namespace FT
open Spec

namespace EsExample

/-- Data conversion that changes nothing; types by column name. -/
def lib : Lib where
  infer f _ given _ _ := (f.cols.filter fun c => !given.any fun p => p.1 == c).map fun c => (c, "categorical")
  convert f _ := .ok f
  timeType _ c := if c = "n" then some .numeric else if c = "t" ∨ c = "u" ∨ c = "first_orders_time" then some .datetime else none
  isDatetime _ c := c != "n"
  known _ := true
  numeric s := s == "int64"

def orders : DataFrame where
  cols := ["oid", "cust", "city", "t", "n"]
  rows := [Row.ofList [("oid", .num 1), ("cust", .num 7), ("city", .str "x"), ("t", .num 30), ("n", .num 1)],
           Row.ofList [("oid", .num 2), ("cust", .num 8), ("city", .str "y"), ("t", .num 10), ("n", .num 2)],
           Row.ofList [("oid", .num 3), ("cust", .num 7), ("city", .str "x"), ("t", .num 20), ("n", .num 3)]]
  dtype c := if c = "city" then "object" else "int64"

def custs : DataFrame where
  cols := ["id", "age"]
  rows := [Row.ofList [("id", .num 7), ("age", .num 50)], Row.ofList [("id", .num 8), ("age", .num 60)]]
  dtype _ := "int64"

def es1 : ESet := (entityFromDataframe lib ESet.empty { id := "orders", df := orders, index := some "oid", timeIndex := some "t" }).1
def es2 : ESet := (entityFromDataframe lib es1 { id := "custs", df := custs, index := some "id" }).1
def rel : Relationship := ⟨"custs", "id", "orders", "cust"⟩
def es3 : ESet := (addRelationship lib es2 rel).1
def norm : NormArgs := { base := "orders", new := "towns", index := "cust", additional := ["city"] }

theorem lib_keeps : KeepsData lib := fun f types g h => by cases h; rfl

theorem es3_reached (P : ESet → Op → Prop)
    (h1 : P ESet.empty (.create { id := "orders", df := orders, index := some "oid", timeIndex := some "t" }))
    (h2 : P es1 (.create { id := "custs", df := custs, index := some "id" })) (h3 : P es2 (.relate rel)) : Reached lib P es3 :=
  .call (.call (.call .start _ h1) _ h2) _ h3

end EsExample

/-! ### C04 -/

/-- **C04.** After any history of calls (creating entities, relating, normalising, deleting variables, changing types,
replacing data, reading metadata), failing ones included, in which no new entity is given the id of an existing one, entity
ids are distinct, no relationship is listed twice, and every relationship names existing entities, the index of its parent,
and a column other than the index of its child. Missing: histories that create an entity under an existing id; see
`C04_reused_id_violated`. -/
theorem C04_schema_ok_partial (lib : Lib) (es : ESet) (h : Reached lib (fun es op => op.NewId es) es) : SchemaOk es :=
  reached_schemaOk h

/-- **C04.** `add_relationship` leaves the list as it was or adds the relationship at its end; if it raises, the list is as
it was, and if it does not, the relationship is in the list. -/
theorem C04_add_relationship (lib : Lib) (es : ESet) (r : Relationship) :
    ((addRelationship lib es r).1.rels = es.rels ∨ (addRelationship lib es r).1.rels = es.rels ++ [r] ∧ r ∉ es.rels) ∧
    ((addRelationship lib es r).2 ≠ none → (addRelationship lib es r).1.rels = es.rels) ∧
    ((addRelationship lib es r).2 = none → r ∈ (addRelationship lib es r).1.rels) := by
  obtain ⟨_, h⟩ := relate_effect lib es r
  refine ⟨?_, ?_, relate_mem⟩
  · rcases h with h | ⟨_, h, hn, _⟩
    · exact .inl h
    · exact .inr ⟨h, hn⟩
  · intro he
    rcases h with h | ⟨h, _⟩
    · exact h
    · exact absurd h he

/-- **C04.** A relationship to a column that is not the parent's index, or from the child's index, is refused. -/
theorem C04_refused (lib : Lib) (es : ESet) (r : Relationship) (p c : Entity) (hp : es.get? r.parentE = some p)
    (hc : es.get? r.childE = some c) (hn : r ∉ es.rels) (hb : p.index ≠ r.parentV ∨ c.index = r.childV) :
    (addRelationship lib es r).2 ≠ none ∧ (addRelationship lib es r).1 = es := by
  unfold addRelationship addNewRelationship
  simp only [hp, hc]
  split
  · exact ⟨by simp, rfl⟩
  · split
    · exact ⟨by simp, rfl⟩
    · rename_i hpi
      rw [if_neg (by simpa using hn)]
      rcases hb with hb | hb
      · exact absurd hb hpi
      · rw [if_pos hb]; exact ⟨by simp, rfl⟩

/-- **C04 is violated** when an entity is created under the id of an existing one: the relationship stays and names a
column that is not the index of its parent any more. -/
theorem C04_reused_id_violated :
    ∃ (a : EntityArgs), (entityFromDataframe EsExample.lib EsExample.es3 a).2 = none ∧
      ¬ SchemaOk (entityFromDataframe EsExample.lib EsExample.es3 a).1 := by
  refine ⟨{ id := "custs", df := EsExample.custs, index := some "age" }, by decide, fun h => ?_⟩
  rw [schemaOk_iff] at h
  exact absurd (h.2.2 EsExample.rel (by decide)).1 (by decide)

/-- The history of the example meets the hypothesis of `C04_schema_ok_partial`, and has a relationship. -/
example : Reached EsExample.lib (fun es op => op.NewId es) EsExample.es3 ∧ EsExample.es3.rels = [EsExample.rel] :=
  ⟨EsExample.es3_reached _ (by simp [Op.NewId, ESet.empty]) (by show _ ∉ _; decide) trivial, by decide⟩

/-! ### C05 -/

/-- **C05.** After any history of creating, normalising (failing or not), relating and replacing data (succeeding), setting
descriptions and reading metadata, what `es.metadata` gives describes the entity set as it is. Missing: variables deleted or
converted on an entity, and failing calls of `add_relationship` and `update_data`; see the violations below. -/
theorem C05_metadata_fresh_partial (lib : Lib) (es : ESet) (h : Reached lib (Op.Tracked lib) es) : (readMetadata es).2 = describe es := by
  unfold readMetadata
  rcases reached_cacheOk h with h | h <;> rw [h]

/-- Reading metadata changes neither entities nor relationships. -/
theorem C05_read_only (es : ESet) : (readMetadata es).1.entities = es.entities ∧ (readMetadata es).1.rels = es.rels :=
  readMetadata_effect es

/-- **C05 is violated** by deleting a variable of an entity after metadata was read. -/
theorem C05_delete_violated :
    let es := (deleteVariables (readMetadata EsExample.es3).1 "orders" ["city"]).1
    (deleteVariables (readMetadata EsExample.es3).1 "orders" ["city"]).2 = none ∧ (readMetadata es).2 ≠ describe es := by
  decide

/-- **C05 is violated** by converting a variable of an entity after metadata was read. -/
theorem C05_convert_violated :
    let es := (convertVariableType (readMetadata EsExample.es3).1 "orders" "n" "numeric").1
    (convertVariableType (readMetadata EsExample.es3).1 "orders" "n" "numeric").2 = none ∧ (readMetadata es).2 ≠ describe es := by
  decide

/-- **C05 is violated** by a relationship that is refused because of the types of its columns, after metadata was read: the
child column has become an `Id` by then. -/
theorem C05_refused_relationship_violated :
    let es0 := (readMetadata EsExample.es2).1
    let r : Relationship := ⟨"custs", "id", "orders", "city"⟩
    (addRelationship EsExample.lib es0 r).2 = some .valueError ∧
      (readMetadata (addRelationship EsExample.lib es0 r).1).2 ≠ describe (addRelationship EsExample.lib es0 r).1 := by
  decide

example : Reached EsExample.lib (Op.Tracked EsExample.lib) EsExample.es3 :=
  EsExample.es3_reached _ trivial trivial (by show _ = _; decide)

/-! ### C06 -/

/-- **C06.** When `normalize_entity` succeeds: the new entity has one row for each distinct value of the key column of the
base entity, with the moved and copied columns holding the values of the first base row of the key; the base entity keeps
its rows, index and all columns but the moved ones; the relationship is added; other entities are as before. -/
theorem C06_normalize (lib : Lib) (hk : KeepsData lib) (es es' : ESet) (a : NormArgs) (x : Entity) (hx : es.get? a.base = some x)
    (h : normalizeEntity lib es a = (es', none)) :
    ∃ n y, es'.get? a.new = some n ∧ es'.get? a.base = some y ∧ IsNormalised x n a.index (a.additional ++ a.copy) ∧
      y.index = x.index ∧ y.df.rows = x.df.rows ∧ y.df.cols = x.df.cols.filter (fun c => !a.additional.contains c) ∧
      ⟨a.new, a.index, a.base, a.index⟩ ∈ es'.rels ∧ ∀ e, e ≠ a.new → e ≠ a.base → es'.get? e = es.get? e := by
  obtain ⟨n, y, h1, h2, h3, h4, h5, h6, _, _, h9, h10⟩ := normalize_ok hk hx h
  exact ⟨n, y, h1, h2, h3, h4, h5, h6, h9, h10⟩

/-- **C06.** Every row of the base entity belongs to exactly one row of the new entity. -/
theorem C06_one_parent (lib : Lib) (hk : KeepsData lib) (es es' : ESet) (a : NormArgs) (x : Entity) (hx : es.get? a.base = some x)
    (h : normalizeEntity lib es a = (es', none)) :
    ∃ n y, es'.get? a.new = some n ∧ es'.get? a.base = some y ∧
      ∀ s ∈ y.df.rows, ∃ r, n.df.rows.filter (fun r => decide (r n.index = s a.index)) = [r] := by
  obtain ⟨n, y, h1, h2, h3, _, h5, _⟩ := normalize_ok hk hx h
  refine ⟨n, y, h1, h2, fun s hs => ?_⟩
  have hm := (h3.values (s a.index)).mpr (List.mem_map.mpr ⟨s, h5 ▸ hs, rfl⟩)
  have hd := h3.distinct
  rw [h3.index]
  generalize n.df.rows = l at hm hd
  induction l with
  | nil => simp at hm
  | cons b l ih =>
    simp only [List.map_cons, List.nodup_cons] at hd
    by_cases hb : b a.index = s a.index
    · refine ⟨b, ?_⟩
      simp only [List.filter_cons, hb, decide_true, if_true]
      congr 1
      rw [List.filter_eq_nil_iff]
      intro r hr hrs
      exact hd.1 (by rw [hb, ← of_decide_eq_true hrs]; exact List.mem_map_of_mem hr)
    · simp only [List.filter_cons, hb, decide_false, Bool.false_eq_true, if_false]
      refine ih ?_ hd.2
      simp only [List.map_cons, List.mem_cons] at hm
      rcases hm with hm | hm
      · exact absurd hm.symm hb
      · exact hm

/-- **C06.** When the moved columns are functions of the key, joining back gives their values. -/
theorem C06_join_back (lib : Lib) (hk : KeepsData lib) (es es' : ESet) (a : NormArgs) (x : Entity) (hx : es.get? a.base = some x)
    (h : normalizeEntity lib es a = (es', none))
    (hf : ∀ s ∈ x.df.rows, ∀ s' ∈ x.df.rows, s a.index = s' a.index → ∀ c ∈ a.additional, s c = s' c) :
    ∃ n y, es'.get? a.new = some n ∧ es'.get? a.base = some y ∧
      ∀ s ∈ x.df.rows, s ∈ y.df.rows ∧ ∀ r ∈ n.df.rows, r n.index = s a.index → ∀ c ∈ a.additional, r c = s c := by
  obtain ⟨n, y, h1, h2, h3, _, h5, _⟩ := normalize_ok hk hx h
  refine ⟨n, y, h1, h2, fun s hs => ⟨h5 ▸ hs, fun r hr he c hc => ?_⟩⟩
  obtain ⟨s', hs', hcar⟩ := h3.first r hr
  rw [hcar c (List.mem_append_left _ hc)]
  rw [h3.index] at he
  refine hf s' (List.mem_of_find?_eq_some hs') s hs ?_ c hc
  have := List.find?_some hs'
  rw [of_decide_eq_true this, he]

/-- The call of the example succeeds: two towns out of three orders. -/
example : (normalizeEntity EsExample.lib EsExample.es3 EsExample.norm).2 = none ∧
    ((normalizeEntity EsExample.lib EsExample.es3 EsExample.norm).1.get? "towns").map (fun n => n.df.rows.map fun r => (r "cust", r "city", r "first_orders_time")) =
      some [(.num 8, .str "y", .num 10), (.num 7, .str "x", .num 20)] ∧ KeepsData EsExample.lib :=
  ⟨by decide, by decide, EsExample.lib_keeps⟩

/-- The index of the base entity can be moved to the new one: the base entity is then left without the column that is its
index. -/
theorem C06_index_moved :
    ∃ (a : NormArgs) (es' : ESet) (y : Entity), normalizeEntity EsExample.lib EsExample.es3 a = (es', none) ∧ es'.get? a.base = some y ∧
      y.index ∉ y.df.cols := by
  have h1 : (normalizeEntity EsExample.lib EsExample.es3 { EsExample.norm with additional := ["oid"] }).2 = none := by decide
  have h2 : ((normalizeEntity EsExample.lib EsExample.es3 { EsExample.norm with additional := ["oid"] }).1.get? "orders").isSome := by decide
  have h3 : ((normalizeEntity EsExample.lib EsExample.es3 { EsExample.norm with additional := ["oid"] }).1.get? "orders").all
    (fun y => decide (y.index ∉ y.df.cols)) := by decide
  obtain ⟨y, hy⟩ := Option.isSome_iff_exists.mp h2
  rw [hy] at h3
  exact ⟨_, _, y, Prod.ext rfl h1, hy, by simpa using h3⟩

/-! ### C07 -/

/-- **C07.** An entity is created only with distinct index values; it is then found under its id, and everything else is as
before. The index is the given column, or the first one. -/
theorem C07_unique (lib : Lib) (es : ESet) (a : EntityArgs) (h : (entityFromDataframe lib es a).2 = none) :
    ∃ x, (entityFromDataframe lib es a).1.get? a.id = some x ∧ x.id = a.id ∧ (x.df.rows.map fun r => r x.index).Nodup ∧
      (∀ i, a.index = some i → x.index = i) ∧ (a.index = none → a.df.cols.head? = some x.index) ∧
      (∀ e, e ≠ a.id → (entityFromDataframe lib es a).1.get? e = es.get? e) ∧ (entityFromDataframe lib es a).1.rels = es.rels := by
  obtain ⟨tt, x, hx, _, hc⟩ := create_ok h
  have hu := newEntity_unique hx
  obtain ⟨created, index, df, link, vars, df', hci, hl, hcv, e1, e2, e3, e4, e5, e6, e7, e8, e9, e10⟩ := newEntity_ok hx
  have hg : ∀ e, (entityFromDataframe lib es a).1.get? e = if x.id = e then some x else es.get? e := by
    intro e; rw [hc]; exact get?_setEntity ..
  refine ⟨x, by rw [hg, if_pos e1], e1, hu, ?_, ?_, fun e he => by rw [hg, if_neg (by rw [e1]; exact Ne.symm he)], by rw [hc]⟩
  · intro i hi
    unfold createIndex at hci
    rw [hi] at hci
    simp only at hci
    split at hci
    · cases hci
    · split at hci <;> (cases hci; exact e2)
  · intro hi
    unfold createIndex at hci
    rw [hi] at hci
    simp only at hci
    split at hci
    · cases hci
    · split at hci
      · rename_i c _ hcs; cases hci; rw [hcs, e2]; rfl
      · cases hci

/-- **C07.** Index values are distinct in every entity after any history of calls in which replacing data succeeds. Missing:
`update_data` calls that fail; see `C07_failed_update_violated`. -/
theorem C07_always_unique_partial (lib : Lib) (es : ESet) (h : Reached lib (Op.UpdateSucceeds lib) es) : IndexUnique es :=
  reached_indexUnique h

/-- **C07.** With `make_index` the index is a new column numbering the rows `0..n-1` in their order: the rows of the entity
are those of the frame with the number added (in time order if there is a time index to sort by). -/
theorem C07_make_index (lib : Lib) (hk : KeepsData lib) (es : ESet) (a : EntityArgs) (hm : a.makeIndex = true)
    (h : (entityFromDataframe lib es a).2 = none) :
    ∃ x i, (entityFromDataframe lib es a).1.get? a.id = some x ∧ a.index = some i ∧ x.index = i ∧ i ∉ a.df.cols ∧ i ∈ x.df.cols ∧
      x.df.rows.Perm (a.df.rows.mapIdx fun k r => fun c => if c = i then .num k else r c) ∧
      (a.timeIndex = none ∨ a.sorted = true → x.df.rows = a.df.rows.mapIdx fun k r => fun c => if c = i then .num k else r c) := by
  obtain ⟨tt, x, hx, _, hc⟩ := create_ok h
  obtain ⟨created, index, df, link, vars, df', hci, hl, hcv, e1, e2, e3, e4, e5, e6, e7, e8, e9, e10⟩ := newEntity_ok hx
  have hg : (entityFromDataframe lib es a).1.get? a.id = some x := by
    rw [hc]; refine (get?_setEntity ..).trans ?_; rw [if_pos e1]
  obtain ⟨⟨all, hconv⟩, _, hiv⟩ := createVars_ok hcv
  have hrows : df'.rows = df.rows := by rw [hk _ _ _ hconv]
  unfold createIndex at hci
  cases hi : a.index with
  | none => rw [hi, hm] at hci; cases hci
  | some i =>
    rw [hi, hm] at hci
    simp only [Bool.true_and] at hci
    split at hci
    · cases hci
    · rename_i hnc
      cases hci
      exact ⟨x, _, hg, rfl, e2, by simpa using hnc, by rw [e6]; exact hiv, by rw [hrows] at e7; exact e7, fun h => by rw [e8 h, hrows]; rfl⟩

/-- **C07.** With `make_index` an existing column of that name is an error, and nothing changes. -/
theorem C07_existing_column (lib : Lib) (es : ESet) (a : EntityArgs) (i : String) (hm : a.makeIndex = true) (hi : a.index = some i)
    (hc : i ∈ a.df.cols) : (entityFromDataframe lib es a).2 ≠ none ∧ (entityFromDataframe lib es a).1 = es := by
  have hci : createIndex a.index a.makeIndex a.df = .error .runtimeError := by
    unfold createIndex
    simp [hi, hm, hc]
  unfold entityFromDataframe newEntity
  rw [hci]
  split
  · exact ⟨by simp, rfl⟩
  · cases validateParams a.df a.timeIndex with
    | some e => exact ⟨by simp, rfl⟩
    | none => exact ⟨by simp, rfl⟩

/-- **C07.** If creating an entity fails, entities, relationships and metadata are as before. Missing: the time type of the
entity set; see `C07_failure_sets_time_type`. -/
theorem C07_failure_unchanged_partial (lib : Lib) (es : ESet) (a : EntityArgs) (h : (entityFromDataframe lib es a).2 ≠ none) :
    (entityFromDataframe lib es a).1.entities = es.entities ∧ (entityFromDataframe lib es a).1.rels = es.rels ∧
      (entityFromDataframe lib es a).1.cache = es.cache := by
  rw [create_failed h]; exact ⟨rfl, rfl, rfl⟩

/-- **C07 is violated** in one point: creating an entity whose secondary time index does not fit its time index fails, but
has set the time type of the entity set, so that creating an entity that was possible before is an error afterwards. -/
theorem C07_failure_sets_time_type :
    let bad : EntityArgs := { id := "orders", df := EsExample.orders, index := some "oid", timeIndex := some "t", secondary := [("n", [])] }
    let good : EntityArgs := { id := "orders", df := EsExample.orders, index := some "oid", timeIndex := some "n" }
    (entityFromDataframe EsExample.lib ESet.empty bad).2 = some .typeError ∧
      (entityFromDataframe EsExample.lib ESet.empty good).2 = none ∧
      (entityFromDataframe EsExample.lib (entityFromDataframe EsExample.lib ESet.empty bad).1 good).2 = some .typeError := by
  decide

/-- **C07 is violated** by a failing `update_data`: the entity is left with the new rows, whose index values repeat. -/
theorem C07_failed_update_violated :
    let df : DataFrame := { EsExample.custs with rows := EsExample.custs.rows ++ EsExample.custs.rows }
    let es := (updateData EsExample.lib EsExample.es3 "custs" df false).1
    (updateData EsExample.lib EsExample.es3 "custs" df false).2 = some .assertionError ∧ ¬ IndexUnique es := by
  refine ⟨by decide, fun h => ?_⟩
  have h2 : ((updateData EsExample.lib EsExample.es3 "custs" { EsExample.custs with rows := EsExample.custs.rows ++ EsExample.custs.rows } false).1.entities.map
    fun x => decide ((x.df.rows.map fun r => r x.index).Nodup)) = [true, false] := by decide
  have h3 : false ∈ ((updateData EsExample.lib EsExample.es3 "custs" { EsExample.custs with rows := EsExample.custs.rows ++ EsExample.custs.rows } false).1.entities.map
    fun x => decide ((x.df.rows.map fun r => r x.index).Nodup)) := by rw [h2]; simp
  obtain ⟨x, hx, he⟩ := List.mem_map.mp h3
  exact (of_decide_eq_false he) (h x hx)

example : Reached EsExample.lib (Op.UpdateSucceeds EsExample.lib) EsExample.es3 := EsExample.es3_reached _ trivial trivial trivial

/-- Creating with `make_index` succeeds. -/
example : (entityFromDataframe EsExample.lib EsExample.es3 { id := "more", df := EsExample.custs, index := some "row", makeIndex := true }).2 = none := by
  decide

end FT
