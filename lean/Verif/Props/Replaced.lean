import Verif.Lemmas.Replaced
import Verif.Props.Created
/-! # Properties of replacing data, deleting and converting variables: C86; the time type of an entity set: C85 -/
namespace FT
open Spec

/-- **C86.** When replacing the data of an entity succeeds, id, index, time index and columns are as before, each secondary
time index governs the same columns (and itself), the variables are the same but for those of index and time index, which
keep id and name and get the type of an index or time index; the rows are the new ones, in order of time and index unless
there is no time index or they are said to be sorted; other entities and the relationships are as before. -/
theorem C86_update (lib : Lib) (hl : LibOk lib) (es es' : ESet) (e : String) (x : Entity) (df : DataFrame) (sorted : Bool)
    (hx : es.get? e = some x) (hc : Coherent x) (h : updateData lib es e df sorted = (es', none)) :
    ∃ z, es'.get? e = some z ∧ z.id = x.id ∧ z.index = x.index ∧ z.timeIndex = x.timeIndex ∧ z.df.cols = x.df.cols ∧
      z.secondary = x.secondary.map (fun s => (s.1, if s.1 ∈ s.2 then s.2 else s.2 ++ [s.1])) ∧
      z.vars.length = x.vars.length ∧ (∀ (k : Nat) (v w : Var), x.vars[k]? = some v → z.vars[k]? = some w → AfterUpdate lib x z.df v w) ∧
      z.df.rows.Perm df.rows ∧ (x.timeIndex = none ∨ sorted = true → z.df.rows = df.rows) ∧
      (∀ t, x.timeIndex = some t → sorted = false → z.df.rows.Pairwise (InOrder (some t) x.index)) ∧
      (∀ e', e' ≠ e → es'.get? e' = es.get? e') ∧ es'.rels = es.rels := by
  obtain ⟨h1, h2, h3, tt, h4, h5, rfl⟩ := (update_iff hx (by rw [hc.vars]; exact hc.index)).mp h
  have hid := (get?_mem hx).2
  have hperm := orderedFrame_perm { df with cols := x.vars.map Var.id } x.index x.timeIndex sorted
  have hg := fun e' => get?_modify (es := es) (e := e)
    (f := fun _ => { x with vars := x.vars.map (retype lib { df with cols := x.vars.map Var.id } x.index x.timeIndex), secondary := addOwnColumn x.secondary
                            df := orderedFrame { df with cols := x.vars.map Var.id } x.index x.timeIndex sorted }) (fun _ _ => hid) e'
  refine ⟨{ x with vars := x.vars.map (retype lib { df with cols := x.vars.map Var.id } x.index x.timeIndex), secondary := addOwnColumn x.secondary
                   df := orderedFrame { df with cols := x.vars.map Var.id } x.index x.timeIndex sorted }, ?_, rfl, rfl, rfl, ?_, ?_, by simp, ?_, hperm, ?_, ?_, fun e' he => (hg e').trans (if_neg he), rfl⟩
  · refine (hg e).trans ?_
    rw [if_pos rfl, hx]
    rfl
  · show (orderedFrame _ _ _ _).cols = _
    rw [orderedFrame_cols]; exact hc.vars
  · show addOwnColumn x.secondary = _
    unfold addOwnColumn
    apply List.map_congr_left
    rintro ⟨t, cols⟩ _
    simp only [List.contains_iff_mem]
  · intro k v w hv hw
    simp only [List.getElem?_map, hv, Option.map_some, Option.some.injEq] at hw
    subst hw
    have hr := retype_cases lib { df with cols := x.vars.map Var.id } x v
    have hdate := hl.date _ _ v.id (cells_perm hperm v.id)
    cases hr with
    | date a b c => exact .date a (by rw [hdate]; exact b) c
    | number a b c => exact .number a (by rw [hdate]; exact b) c
    | index a b c => exact .index a b c
    | other a b c => exact .other a b c
  · intro ho
    show (orderedFrame _ _ _ _).rows = _
    unfold orderedFrame
    rcases ho with ho | ho
    · rw [ho]
    · rw [ho]; split <;> rfl
  · intro t ht hs
    show (orderedFrame _ _ _ _).rows.Pairwise _
    unfold orderedFrame
    rw [ht, hs]
    exact sortRows_sorted ..

/-- **C86.** The data of an entity can be replaced by exactly the frames with its columns, distinct index values and times of
the time type of the entity set. -/
theorem C86_update_accepted_iff (lib : Lib) (hl : LibOk lib) (es : ESet) (e : String) (x : Entity) (df : DataFrame) (sorted : Bool)
    (hx : es.get? e = some x) (hc : Coherent x) :
    (updateData lib es e df sorted).2 = none ↔ Replaceable lib es.timeType x df := by
  have key := fun es' => update_iff (lib := lib) (es' := es') (df := df) (sorted := sorted) hx (by rw [hc.vars]; exact hc.index)
  have htime : ∀ c, lib.timeType { df with cols := x.vars.map Var.id } c = lib.timeType df c := fun c => hl.time _ _ c (.refl _)
  constructor
  · intro h
    obtain ⟨h1, h2, h3, tt, h4, h5, _⟩ := (key _).mp (Prod.ext rfl h)
    refine ⟨h1, h2, h3, ?_, ?_⟩
    · intro t ht
      rw [ht] at h4
      obtain ⟨_, ty, k1, k2, k3⟩ := h4
      rw [htime] at k1
      exact ⟨ty, k1, k3⟩
    · intro s hs
      obtain ⟨m1, m2, m3⟩ := (checkSecondary_iff ..).mp h5 s hs
      rw [orderedFrame_cols] at m1
      refine ⟨m1, ?_⟩
      rw [hl.time _ _ s.1 (cells_perm (orderedFrame_perm ..) s.1), htime] at m2
      obtain ⟨ty, hty⟩ := Option.ne_none_iff_exists'.mp m3
      refine ⟨ty, by rw [← m2, hty], ?_⟩
      unfold TimeFits at h4
      cases ht : x.timeIndex with
      | none => rw [ht] at h4; simp only at h4 ⊢; rw [← h4, hty]
      | some t =>
        rw [ht] at h4
        obtain ⟨_, ty', k1, k2, k3⟩ := h4
        rw [htime] at k1
        simp only
        rw [k1, ← k2, hty]
  · intro h
    have hn : (updateData lib es e df sorted) = (_, none) := (key _).mpr
      ⟨h.count, h.cols, h.distinct, match x.timeIndex with | some t => lib.timeType df t | none => es.timeType, ?_, ?_, rfl⟩
    · rw [hn]
    · unfold TimeFits
      cases ht : x.timeIndex with
      | none => rfl
      | some t =>
        obtain ⟨ty, k2, k3⟩ := h.time t ht
        exact ⟨by show t ∈ x.vars.map Var.id; rw [hc.vars]; exact hc.time t ht, ty, by rw [htime]; exact k2, k2, k3⟩
    · refine (checkSecondary_iff ..).mpr fun s hs => ?_
      obtain ⟨m1, ty, m2, m3⟩ := h.secondary s hs
      rw [orderedFrame_cols, hl.time _ _ s.1 (cells_perm (orderedFrame_perm ..) s.1), htime, m2]
      refine ⟨m1, ?_⟩
      cases ht : x.timeIndex with
      | none => rw [ht] at m3; simp only at m3 ⊢; rw [m3]; simp
      | some t => rw [ht] at m3; simp only at m3 ⊢; rw [m3]; simp

/-- **C86.** Deleting variables succeeds exactly for distinct columns of the entity; these are then gone from its frame and
variables, and nothing else has changed. -/
theorem C86_delete_iff (es es' : ESet) (e : String) (x : Entity) (vs : List String) (hx : es.get? e = some x) (hc : Coherent x) :
    deleteVariables es e vs = (es', none) ↔ vs.Nodup ∧ (∀ v ∈ vs, v ∈ x.df.cols) ∧
      es' = { es with entities := es.entities.map fun y => if y.id = e
                then { x with vars := x.vars.filter (fun v => decide (v.id ∉ vs)), df := { x.df with cols := x.df.cols.filter fun c => decide (c ∉ vs) } }
                else y } := by
  unfold deleteVariables ESet.modify
  rw [hx]
  simp only [beq_iff_eq]
  have key := fun y => deleteVars_iff (y := y) hc vs
  constructor
  · intro h
    simp only [Prod.mk.injEq] at h
    obtain ⟨k1, k2, k3⟩ := (key _).mp (Prod.ext rfl h.2)
    refine ⟨k1, k2, ?_⟩
    rw [← h.1]
    show ({ es with entities := _ } : ESet) = _
    rw [show (x.deleteVars vs).fst = _ from k3]
  · rintro ⟨k1, k2, rfl⟩
    have := (key _).mpr ⟨k1, k2, rfl⟩
    rw [this]

/-- **C86.** A variable of an entity can be given another type, and nothing but this variable is changed; it keeps id and
name. Asking for a column that is not there is an error, without effect. -/
theorem C86_convert (es : ESet) (e v t : String) (x : Entity) (hx : es.get? e = some x) (hc : Coherent x) :
    (v ∉ x.df.cols → convertVariableType es e v t = (es, some .keyError)) ∧
    (v ∈ x.df.cols → ∃ y vars, convertVariableType es e v t = ({ es with entities := es.entities.map fun z => if z.id = e then y else z }, none) ∧
      y = { x with vars := vars } ∧ vars.length = x.vars.length ∧ ∀ (k : Nat) (p q : Var), x.vars[k]? = some p → vars[k]? = some q →
        (p.id ≠ v → q = p) ∧ (p.id = v → Remade p q t)) := by
  constructor
  · intro hv
    unfold convertVariableType Entity.convertType Entity.var?
    rw [hx]
    have : (x.vars.find? fun y => y.id == v) = none := by
      rw [List.find?_eq_none]
      intro y hy he
      exact hv (by rw [← hc.vars]; exact List.mem_map.mpr ⟨y, hy, by simpa using he⟩)
    simp only [this]
  · intro hv
    refine ⟨_, x.vars.map fun y => if y.id == v then y.createFrom t else y, ?_, rfl, by simp, ?_⟩
    · unfold convertVariableType ESet.modify
      rw [hx]
      simp only [convertType_of (t := t) (show v ∈ x.vars.map Var.id by rw [hc.vars]; exact hv), beq_iff_eq]
    · intro k p q hp hq
      simp only [List.getElem?_map, hp, Option.map_some, Option.some.injEq] at hq
      subst hq
      refine ⟨fun h => if_neg (by simpa using h), fun h => ?_⟩
      rw [if_pos (by simpa using h)]
      exact ⟨rfl, rfl, rfl, rfl, rfl, rfl⟩

namespace ReplacedExample

/-- The entity set of the example with a description for the index of the customers. -/
def es : ESet := (setDescription EsExample.es3 "custs" "id" "the customer").1

end ReplacedExample

/-- **C86 is violated** for what is known of the index: replacing the data of an entity by the same data loses the
description of its index. -/
theorem C86_description_lost_violated :
    (updateData EsExample.lib ReplacedExample.es "custs" EsExample.custs false).2 = none ∧
    ((ReplacedExample.es.get? "custs").bind fun x => x.var? "id").map (fun v => (describeVar v).description) = some "the customer" ∧
    (((updateData EsExample.lib ReplacedExample.es "custs" EsExample.custs false).1.get? "custs").bind fun x => x.var? "id").map
      (fun v => (describeVar v).description) = some "the \"id\"" := by
  decide

/-- **C86 is violated** by converting a variable: its description is lost. -/
theorem C86_convert_description_violated :
    (((convertVariableType (setDescription EsExample.es3 "custs" "age" "in years").1 "custs" "age" "numeric").1.get? "custs").bind fun x => x.var? "age").map
      (fun v => (describeVar v).description) = some "the \"age\"" := by
  decide

/-! ### The time type -/

/-- Setting a time index does not change a time type that is set. -/
theorem setTimeIndex_type {lib : Lib} {ty : TimeType} {x : Entity} {t : String} {sorted : Bool} :
    (x.setTimeIndex lib (some ty) t sorted).1 = some ty := by
  unfold Entity.setTimeIndex
  split
  · split
    · rfl
    · split
      · rename_i h
        rcases h with h | h
        · cases h
        · simp only
          split <;> exact h.symm
      · rfl
  · rfl

theorem create_type {lib : Lib} {es : ESet} {ty : TimeType} (h : es.timeType = some ty) (a : EntityArgs) :
    (entityFromDataframe lib es a).1.timeType = some ty := by
  have hn : (newEntity lib es a).1 = some ty := by
    unfold newEntity
    split
    · exact h
    · split
      · exact h
      · split
        · exact h
        · split
          · exact h
          · unfold finishEntity
            split
            · exact h
            · simp only
              cases a.timeIndex with
              | none =>
                simp only
                exact h
              | some t =>
                simp only
                rw [h]
                split <;> exact setTimeIndex_type
  unfold entityFromDataframe
  split
  · exact h
  · generalize newEntity lib es a = r at hn
    obtain ⟨tt, r⟩ := r
    cases r <;> exact hn

theorem delete_type (es : ESet) (e : String) (vs : List String) : (deleteVariables es e vs).1.timeType = es.timeType := by
  unfold deleteVariables; split <;> rfl

theorem convert_type (es : ESet) (e v t : String) : (convertVariableType es e v t).1.timeType = es.timeType := by
  unfold convertVariableType
  split
  · rfl
  · split <;> rfl

theorem relate_type (lib : Lib) (es : ESet) (r : Relationship) : (addRelationship lib es r).1.timeType = es.timeType := by
  have hf : ∀ (es : ESet) pe pv ce cv, (fixEmptyDtype lib es pe pv ce cv).timeType = es.timeType := by
    intro es pe pv ce cv
    unfold fixEmptyDtype; split <;> rfl
  unfold addRelationship addNewRelationship
  split
  · split
    · rfl
    · split
      · rfl
      · split
        · rfl
        · split
          · rfl
          · simp only
            split <;> exact (hf ..).trans rfl
  · rfl

theorem normalize_type {lib : Lib} {es : ESet} {ty : TimeType} (h : es.timeType = some ty) (a : NormArgs) :
    (normalizeEntity lib es a).1.timeType = some ty := by
  unfold normalizeEntity
  split
  · exact h
  · split
    · exact h
    · split
      · exact h
      · split
        · exact h
        · rename_i args _
          have hc := create_type (lib := lib) h args
          split
          · rename_i es1 e he; rw [he] at hc; exact hc
          · rename_i es1 he
            rw [he] at hc
            unfold normFinish
            have hd := delete_type es1 a.base a.additional
            split
            · rename_i es2 _ h2; rw [h2] at hd; exact hd.trans hc
            · rename_i es2 h2
              rw [h2] at hd
              have hcv := convert_type es2 a.base a.index "id"
              split
              · rename_i es3 _ h3; rw [h3] at hcv; exact hcv.trans (hd.trans hc)
              · rename_i es3 h3
                rw [h3] at hcv
                have hr := relate_type lib es3 ⟨a.new, a.index, a.base, a.index⟩
                split
                · rename_i es4 _ h4; rw [h4] at hr; exact hr.trans (hcv.trans (hd.trans hc))
                · rename_i es4 h4; rw [h4] at hr; exact hr.trans (hcv.trans (hd.trans hc))

theorem update_type {lib : Lib} {es : ESet} {ty : TimeType} (h : es.timeType = some ty) (e : String) (df : DataFrame) (sorted : Bool) :
    (updateData lib es e df sorted).1.timeType = some ty := by
  unfold updateData
  split
  · exact h
  · split
    · exact h
    · split
      · simp only
        split
        · exact h
        · rename_i x _ _ _ _ x2 _
          cases x.timeIndex with
          | none =>
            simp only
            split <;> exact h
          | some t =>
            simp only
            rw [h]
            split
            · exact setTimeIndex_type
            · split <;> exact setTimeIndex_type
      · exact h

/-- **C85.** Once the time type of an entity set is known no call changes it, whether it succeeds or fails. -/
theorem C85_time_type_kept (lib : Lib) (es : ESet) (ty : TimeType) (h : es.timeType = some ty) (op : Op) :
    (op.run lib es).1.timeType = some ty := by
  cases op with
  | create a => exact create_type h a
  | relate r => exact (relate_type lib es r).trans h
  | normalize a => exact normalize_type h a
  | delete e vs => exact (delete_type es e vs).trans h
  | convert e v t => exact (convert_type es e v t).trans h
  | update e df sorted => exact update_type h e df sorted
  | describe e v d =>
    show (setDescription es e v d).1.timeType = _
    unfold setDescription
    split
    · exact h
    · simp only
      split <;> exact h
  | readMetadata =>
    show (readMetadata es).1.timeType = _
    unfold readMetadata
    split <;> exact h

theorem ReplacedExample.coherent : ∀ x ∈ EsExample.es3.entities, Coherent x := by
  have h : EsExample.es3.entities.all (fun x => decide (x.vars.map Var.id = x.df.cols) && decide x.df.cols.Nodup && decide (x.index ∈ x.df.cols) &&
      (match x.timeIndex with | some t => decide (t ∈ x.df.cols) | none => true)) = true := by decide
  intro x hx
  have := List.all_eq_true.mp h x hx
  simp only [Bool.and_eq_true, decide_eq_true_eq] at this
  obtain ⟨⟨⟨h1, h2⟩, h3⟩, h4⟩ := this
  refine ⟨h1, h2, h3, fun t ht => ?_⟩
  rw [ht] at h4
  simpa using h4

/-- The entities of the example are coherent, their data can be replaced, and the time type is known. -/
example : (∀ x ∈ EsExample.es3.entities, Coherent x) ∧ EsExample.es3.timeType = some .datetime ∧
    (updateData EsExample.lib EsExample.es3 "orders" EsExample.orders false).2 = none ∧
    (deleteVariables EsExample.es3 "orders" ["city", "n"]).2 = none :=
  ⟨ReplacedExample.coherent, by decide, by decide, by decide⟩

end FT
