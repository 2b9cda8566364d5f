import Verif.Spec.Serialize
import Verif.Lemmas.LastTime
/-! # Lemmas about reading descriptions of entity sets -/
namespace FT
open Spec

/-- A variable as a new entity has it before descriptions and interesting values are restored. -/
structure FreshVar (v w : Var) : Prop where
  id : w.id = v.id
  type : w.type = v.type
  name : w.name.getD w.id = v.id
  desc : w.desc = none
  params : w.params = []

theorem restoreVar_describe {json : Json} {v w : Var} (hf : FreshVar v w) (hn : v.name = none ∨ v.name = some v.id) (hp : v.params = [])
    (hi : json.read v.interesting = v.interesting ∧ (json.discrete v.type = true → v.interesting.Nodup)) :
    describeVar (restoreVar json (describeVar v) w) = describeVar v := by
  have hname : v.name.getD v.id = v.id := by rcases hn with h | h <;> rw [h] <;> rfl
  have hint : (if json.discrete w.type then dedup (json.read v.interesting) else json.read v.interesting) = v.interesting := by
    rw [hi.1, hf.type]
    split
    · rename_i h; exact (dedup_eq_self _).mpr (hi.2 h)
    · rfl
  obtain ⟨h1, h2, h3, h4, h5⟩ := hf
  unfold restoreVar setInteresting
  simp only [describeVar, hname, hint, h3]
  split
  · simp only [h1, h2, h5, hp, Option.getD_some]
    rw [h1] at h3
    rw [h3]
  · rename_i hd
    have hd' := Classical.not_not.mp hd
    simp only [h1, h2, h4, h5, hp, Option.getD_none]
    rw [h1] at h3
    rw [h3, hd']

/-- An entity read back from the description of another. -/
structure CopyOf (x y : Entity) : Prop where
  df : y.df = x.df
  lti : y.lti = none
  desc : describeEntity y = { describeEntity x with hasLti := false }

theorem find?_map_id {vars : List Var} (hn : (vars.map Var.id).Nodup) {v : Var} (hv : v ∈ vars) :
    (vars.map describeVar).find? (fun d => d.id == v.id) = some (describeVar v) := by
  induction vars with
  | nil => cases hv
  | cons a l ih =>
    simp only [List.map_cons, List.nodup_cons] at hn
    rcases List.mem_cons.mp hv with rfl | hv
    · simp [describeVar]
    · have : a.id ≠ v.id := fun h => hn.1 (h ▸ List.mem_map_of_mem hv)
      rw [List.map_cons, List.find?_cons_of_neg (by simpa [describeVar] using this)]
      exact ih hn.2 hv

theorem createVars_given {lib : Lib} {json : Json} {ty : TimeType} {x : Entity} (hd : DescribableEntity lib json ty x) :
    createVars lib [] x.df ((describeEntity x).vars.map fun v => (v.id, .str v.type)) x.index x.timeIndex x.secondary =
      .ok (x.vars.map (fun v => newVar (v.id, v.type)), x.df) := by
  obtain ⟨v0, rest, hv, hid, hty⟩ := hd.indexFirst
  have hgiven : givenTypes lib ((describeEntity x).vars.map fun v => (v.id, .str v.type)) x.index = x.vars.map fun v => (v.id, v.type) := by
    unfold givenTypes
    have : (((describeEntity x).vars.map fun v => (v.id, TypeArg.str v.type)).map fun (v, t) => (v, match t with
        | .cls s => s
        | .str s => if lib.known s then s else "unknown")) = x.vars.map fun v => (v.id, v.type) := by
      simp only [describeEntity, List.map_map]
      apply List.map_congr_left
      intro v hv
      simp [describeVar, hd.known v hv]
    simp only [this]
    rw [if_pos]
    · exact this
    · simp [describeEntity, describeVar, hv, hid]
  unfold createVars
  simp only [hgiven, hd.types, List.nil_append, hd.data]
  have hall : ((x.vars.map fun v => (v.id, v.type)).all fun p => x.df.cols.contains p.1) = true := by
    rw [List.all_eq_true]
    intro p hp
    obtain ⟨v, hv, rfl⟩ := List.mem_map.mp hp
    rw [hd.cols]
    simpa using ⟨v, hv, rfl⟩
  rw [if_pos hall]
  congr 2
  have hn := hd.varIds
  rw [hv] at hn ⊢
  simp only [List.map_cons, List.nodup_cons] at hn
  have hrest : ∀ p ∈ rest.map fun v => (v.id, v.type), p.1 ≠ x.index := by
    intro p hp he
    obtain ⟨v, hv', rfl⟩ := List.mem_map.mp hp
    exact hn.1 (by rw [hid, ← he]; exact List.mem_map_of_mem hv')
  simp only [List.map_cons, List.filter_cons, hid, beq_self_eq_true, if_true, bne_self_eq_false, Bool.false_eq_true, if_false]
  rw [List.filter_eq_nil_iff.mpr (fun p hp => by simpa using hrest p hp), List.filter_eq_self.mpr (fun p hp => by simpa using hrest p hp)]
  simp [List.map_map, Function.comp_def]

theorem contains_col {x : Entity} {lib : Lib} {json : Json} {ty : TimeType} (hd : DescribableEntity lib json ty x) {c : String}
    (hc : c ∈ x.vars.map Var.id) : x.df.cols.contains c = true := by
  rw [hd.cols]; simpa using hc

theorem checkSecondary_ok {lib : Lib} {ty : TimeType} {df : DataFrame} {sec : List (String × List String)}
    (h : ∀ p ∈ sec, df.cols.contains p.1 = true ∧ lib.timeType df p.1 = some ty) : checkSecondary lib (some ty) df sec = none := by
  induction sec with
  | nil => rfl
  | cons p l ih =>
    obtain ⟨t, cols⟩ := p
    obtain ⟨h1, h2⟩ := h (t, cols) (List.mem_cons_self ..)
    simp only at h1 h2
    simp only [checkSecondary, h1, h2, if_true]
    exact ih fun q hq => h q (List.mem_cons_of_mem _ hq)

/-- Convert a variable's type in a list. -/
theorem convertType_ok {x : Entity} {v t : String} (h : v ∈ x.vars.map Var.id) :
    x.convertType v t = .ok { x with vars := x.vars.map fun y => if y.id == v then y.createFrom t else y } := by
  unfold Entity.convertType
  cases hv : x.var? v with
  | none =>
    unfold Entity.var? at hv
    rw [List.find?_eq_none] at hv
    obtain ⟨y, hy, he⟩ := List.mem_map.mp h
    exact absurd (by simpa using he) (hv y hy)
  | some _ => rfl

theorem freshVar_new (v : Var) : FreshVar v (newVar (v.id, v.type)) := ⟨rfl, rfl, rfl, rfl, rfl⟩

theorem freshVar_convert {v w : Var} (hf : FreshVar v w) {t : String} (ht : v.type = t) : FreshVar v (w.createFrom t) := by
  refine ⟨hf.id, ht.symm, ?_, rfl, rfl⟩
  simp only [Var.createFrom, Option.getD_some]
  exact hf.name

/-- The variables of a new entity, one for each original one. -/
theorem var_id_unique {vars : List Var} (hn : (vars.map Var.id).Nodup) {v w : Var} (hv : v ∈ vars) (hw : w ∈ vars) (h : v.id = w.id) : v = w := by
  induction vars with
  | nil => cases hv
  | cons a l ih =>
    simp only [List.map_cons, List.nodup_cons] at hn
    rcases List.mem_cons.mp hv with rfl | hv' <;> rcases List.mem_cons.mp hw with rfl | hw'
    · rfl
    · exact absurd (h ▸ List.mem_map_of_mem hw') hn.1
    · exact absurd (h ▸ List.mem_map_of_mem hv') hn.1
    · exact ih hn.2 hv' hw'

/-- The entity made from a description, before descriptions and interesting values are restored. -/
theorem newEntity_described {lib : Lib} {json : Json} {ty : TimeType} {x : Entity} (hd : DescribableEntity lib json ty x) {es0 : ESet}
    (hr : es0.rels = []) (htt : es0.timeType = none ∨ es0.timeType = some ty) :
    ∃ tt g, newEntity lib es0 { id := x.id, df := x.df, index := some x.index, timeIndex := x.timeIndex, secondary := x.secondary, types := (describeEntity x).vars.map fun v => (v.id, .str v.type) } =
      (tt, .ok { id := x.id, index := x.index, timeIndex := x.timeIndex, secondary := x.secondary, created := none, vars := x.vars.map g, df := x.df, lti := none }) ∧
      (tt = none ∨ tt = some ty) ∧ ∀ v ∈ x.vars, FreshVar v (g v) := by
  obtain ⟨v0, rest, hv, hid, hty⟩ := hd.indexFirst
  have hidx : x.index ∈ x.vars.map Var.id := by rw [hv]; simp [hid]
  have hvalid : validateParams x.df x.timeIndex = none := by
    unfold validateParams
    rw [hd.cols, if_neg (by rw [(dedup_eq_self _).mpr hd.varIds]; simp)]
    cases ht : x.timeIndex with
    | none => rfl
    | some t =>
      obtain ⟨_, _, _, v, hv, he, _⟩ := hd.timeVar t ht
      simp only
      rw [if_pos]
      simpa using ⟨v, hv, he⟩
  have hcreate : createIndex (some x.index) false x.df = .ok (none, x.index, x.df) := by
    simp only [createIndex, contains_col hd hidx, if_true, Bool.false_and, Bool.false_eq_true, if_false]
  have hlink : linkedVars es0 x.id es0.rels = .ok [] := by rw [hr]; rfl
  unfold newEntity
  simp only [hvalid, hcreate, hlink, createVars_given hd]
  unfold finishEntity
  have hdf : ({ x.df with cols := (x.vars.map fun v => newVar (v.id, v.type)).map Var.id } : DataFrame) = x.df := by
    have : (x.vars.map fun v => newVar (v.id, v.type)).map Var.id = x.df.cols := by
      rw [hd.cols, List.map_map]; rfl
    rw [this]
  rw [hdf]
  have hids : ∀ g : Var → Var, (∀ v, (g v).id = v.id) → (x.vars.map g).map Var.id = x.vars.map Var.id := by
    intro g hg
    rw [List.map_map]
    exact List.map_congr_left fun v _ => hg v
  have hset : Entity.setIndex { id := x.id, index := x.index, timeIndex := none, secondary := [], created := none, vars := x.vars.map (fun v => newVar (v.id, v.type)), df := x.df, lti := none } x.index =
      .ok { id := x.id, index := x.index, timeIndex := none, secondary := [], created := none, vars := x.vars.map (fun v => if v.id == x.index then (newVar (v.id, v.type)).createFrom "index" else newVar (v.id, v.type)), df := x.df, lti := none } := by
    unfold Entity.setIndex
    simp only [contains_col hd hidx, if_true]
    rw [if_neg (by rw [(dedup_eq_self _).mpr hd.unique]; simp), convertType_ok (by show x.index ∈ (x.vars.map fun v => newVar (v.id, v.type)).map Var.id; rw [hids (fun v => newVar (v.id, v.type)) fun _ => rfl]; exact hidx)]
    simp only [List.map_map]
    rfl
  rw [hset]
  simp only
  have hg1 : ∀ v ∈ x.vars, FreshVar v (if v.id == x.index then (newVar (v.id, v.type)).createFrom "index" else newVar (v.id, v.type)) := by
    intro v hv'
    split
    · rename_i he
      have : v = v0 := var_id_unique hd.varIds hv' (by rw [hv]; exact List.mem_cons_self ..) ((beq_iff_eq.mp he).trans hid.symm)
      exact freshVar_convert (freshVar_new v) (by rw [this, hty])
    · exact freshVar_new v
  have hsec0 : addOwnColumn x.secondary = x.secondary := by
    unfold addOwnColumn
    conv => rhs; rw [← List.map_id x.secondary]
    apply List.map_congr_left
    rintro ⟨t, cols⟩ hp
    have := (hd.secondary _ hp).2.2.1
    simp only at this
    simp [this]
  cases ht : x.timeIndex with
  | none =>
    have hsec : x.secondary = [] := by
      cases hs : x.secondary with
      | nil => rfl
      | cons p l => exact absurd ht (hd.secondary p (by rw [hs]; exact List.mem_cons_self ..)).1
    simp only [hsec, Entity.setSecondary, checkSecondary, addOwnColumn, List.map_nil]
    exact ⟨es0.timeType, _, rfl, htt, hg1⟩
  | some t =>
    obtain ⟨h1, h2, h3, v, hvm, he, hvt⟩ := hd.timeVar t ht
    have htm : t ∈ x.vars.map Var.id := he ▸ List.mem_map_of_mem hvm
    have hsort : sortRows t x.index x.df.rows = x.df.rows := by
      apply isort_of_sorted
      refine h3.imp ?_
      intro a b hab
      unfold InOrder at hab
      simp only at hab
      split
      · rename_i hc; rw [if_pos hc] at hab; exact (sortLe_iff _ _).mpr hab
      · rename_i hc; rw [if_neg hc] at hab; exact (sortLe_iff _ _).mpr hab
    have htset : Entity.setTimeIndex lib es0.timeType { id := x.id, index := x.index, timeIndex := none, secondary := [], created := none, vars := x.vars.map (fun v => if v.id == x.index then (newVar (v.id, v.type)).createFrom "index" else newVar (v.id, v.type)), df := x.df, lti := none } t false =
      (some ty, .ok { id := x.id, index := x.index, timeIndex := some t, secondary := [], created := none, vars := x.vars.map (fun v => if v.id == t then (if v.id == x.index then (newVar (v.id, v.type)).createFrom "index" else newVar (v.id, v.type)).createFrom (timeIndexType lib x.df t)
              else if v.id == x.index then (newVar (v.id, v.type)).createFrom "index" else newVar (v.id, v.type)), df := x.df, lti := none }) := by
      unfold Entity.setTimeIndex
      simp only [contains_col hd htm, if_true, h2]
      rw [if_pos htt, convertType_ok (by
        show t ∈ (x.vars.map fun v => if v.id == x.index then (newVar (v.id, v.type)).createFrom "index" else newVar (v.id, v.type)).map Var.id
        rw [hids (fun v => if v.id == x.index then (newVar (v.id, v.type)).createFrom "index" else newVar (v.id, v.type)) (fun v => by split <;> rfl)]; exact htm)]
      simp only [Bool.false_eq_true, if_false, hsort, List.map_map, Prod.mk.injEq, true_and]
      congr 2
      apply List.map_congr_left
      intro w _
      simp only [Function.comp]
      have : (if w.id == x.index then (newVar (w.id, w.type)).createFrom "index" else newVar (w.id, w.type)).id = w.id := by split <;> rfl
      rw [this]
    simp only [htset]
    have hcheck : checkSecondary lib (some ty) x.df x.secondary = none :=
      checkSecondary_ok fun p hp => ⟨contains_col hd (hd.secondary p hp).2.1, (hd.secondary p hp).2.2.2⟩
    simp only [Entity.setSecondary, hcheck, hsec0]
    refine ⟨some ty, _, rfl, .inr rfl, ?_⟩
    intro w hw
    split
    · rename_i hwt
      have : w = v := var_id_unique hd.varIds hw hvm ((beq_iff_eq.mp hwt).trans he.symm)
      exact freshVar_convert (hg1 w hw) (by rw [this, hvt]; rfl)
    · exact hg1 w hw

theorem rebuildEntity_ok {lib : Lib} {json : Json} {ty : TimeType} {x : Entity} (hd : DescribableEntity lib json ty x) {es0 : ESet}
    (hr : es0.rels = []) (htt : es0.timeType = none ∨ es0.timeType = some ty) (hnew : x.id ∉ es0.entities.map Entity.id) :
    ∃ tt y, rebuildEntity lib json es0 (describeEntity x) x.df = ({ es0 with entities := es0.entities ++ [y], timeType := tt, cache := none }, none) ∧
      (tt = none ∨ tt = some ty) ∧ CopyOf x y := by
  obtain ⟨tt, g, hn, h1, h2⟩ := newEntity_described hd hr htt
  have hargs : entityArgsError { id := x.id, df := x.df, index := some x.index, timeIndex := x.timeIndex, secondary := x.secondary, types := (describeEntity x).vars.map fun v => (v.id, .str v.type) } = none := by
    unfold entityArgsError
    simp only
    rw [if_neg, if_neg]
    · rintro ⟨_, h⟩
      simp [List.any_eq_true] at h
    · rintro ⟨_, h⟩
      exact (hd.timeVar _ h).1 rfl
  have hfrom : entityFromDataframe lib es0 { id := x.id, df := x.df, index := some x.index, timeIndex := x.timeIndex, secondary := x.secondary, types := (describeEntity x).vars.map fun v => (v.id, .str v.type) } =
      ({ es0 with entities := es0.entities ++ [{ id := x.id, index := x.index, timeIndex := x.timeIndex, secondary := x.secondary, created := none, vars := x.vars.map g, df := x.df, lti := none }], timeType := tt, cache := none }, none) := by
    unfold entityFromDataframe
    rw [hargs, hn]
    simp only
    rw [setEntity_new]
    exact hnew
  have hmod : ∀ (y : Entity) (f : Entity → Entity), y.id = x.id → ESet.modify { es0 with entities := es0.entities ++ [y], timeType := tt, cache := none } x.id f =
      { es0 with entities := es0.entities ++ [f y], timeType := tt, cache := none } := by
    intro y f hy
    unfold ESet.modify
    simp only [List.map_append, List.map_cons, List.map_nil, hy, beq_self_eq_true, if_true]
    congr 2
    conv => rhs; rw [← List.map_id es0.entities]
    apply List.map_congr_left
    intro z hz
    have : z.id ≠ x.id := fun h => hnew (h ▸ List.mem_map_of_mem hz)
    simp [this]
  have hget : ∀ y : Entity, y.id = x.id → ESet.get? { es0 with entities := es0.entities ++ [y], timeType := tt, cache := none } x.id = some y := by
    intro y hy
    unfold ESet.get?
    simp only [List.find?_append]
    have : es0.entities.find? (fun z => z.id == x.id) = none := by
      rw [List.find?_eq_none]
      intro z hz h
      exact hnew (beq_iff_eq.mp h ▸ List.mem_map_of_mem hz)
    rw [this]
    simp [hy]
  refine ⟨tt, restoreVars json (describeEntity x).vars { id := x.id, index := x.index, timeIndex := x.timeIndex, secondary := x.secondary, created := none, vars := x.vars.map g, df := x.df, lti := none }, ?_, h1, ?_⟩
  · unfold rebuildEntity
    have e1 : (describeEntity x).id = x.id := rfl
    have e2 : (describeEntity x).index = x.index := rfl
    have e3 : (describeEntity x).timeIndex = x.timeIndex := rfl
    have e4 : (describeEntity x).secondary = x.secondary := rfl
    rw [e1, e2, e3, e4, hfrom]
    simp only
    rw [hget, if_pos, hmod]
    · rfl
    rotate_left
    · rfl
    simp only [Option.map_some, Option.some.injEq, List.all_eq_true]
    intro w hw
    obtain ⟨v, hv, rfl⟩ := List.mem_map.mp hw
    rw [List.any_eq_true]
    exact ⟨describeVar v, List.mem_map_of_mem hv, by rw [(h2 v hv).id]; simp [describeVar]⟩
  · have hvars : ∀ v ∈ x.vars, (match (describeEntity x).vars.find? fun d => d.id == (g v).id with
        | some d => restoreVar json d (g v)
        | none => g v) = restoreVar json (describeVar v) (g v) := by
      intro v hv
      have := find?_map_id hd.varIds hv
      rw [(h2 v hv).id]
      show (match (x.vars.map describeVar).find? fun d => d.id == v.id with
        | some d => restoreVar json d (g v)
        | none => g v) = _
      rw [this]
    have hdesc : ∀ v ∈ x.vars, describeVar (restoreVar json (describeVar v) (g v)) = describeVar v := fun v hv =>
      restoreVar_describe (h2 v hv) (hd.names v hv) (hd.params v hv) (hd.interesting v hv)
    have hids : ∀ v ∈ x.vars, (restoreVar json (describeVar v) (g v)).id = v.id := fun v hv => congrArg VarDesc.id (hdesc v hv)
    refine ⟨rfl, rfl, ?_⟩
    unfold describeEntity restoreVars
    simp only [List.map_map, EntDesc.mk.injEq, true_and, Option.isSome_none]
    refine ⟨?_, ?_⟩
    · apply List.map_congr_left
      intro v hv
      simp only [Function.comp]
      refine Eq.trans ?_ (hdesc v hv)
      exact congrArg describeVar (hvars v hv)
    · congr 1
      apply List.filter_congr
      intro c _
      rw [Bool.eq_iff_iff]
      simp only [List.any_map, List.any_eq_true, Function.comp, beq_iff_eq]
      constructor
      · rintro ⟨v, hv, he⟩
        refine ⟨v, hv, ?_⟩
        have h3 := hvars v hv
        have h4 := hids v hv
        rw [← h4, ← h3]; exact he
      · rintro ⟨v, hv, he⟩
        refine ⟨v, hv, ?_⟩
        have h3 := hvars v hv
        have h4 := hids v hv
        rw [← he, ← h4, ← h3]; rfl

/-- Entities read back, one for each original. -/
inductive Copies : List Entity → List Entity → Prop
  | nil : Copies [] []
  | cons {x y : Entity} {xs ys : List Entity} (h : CopyOf x y) (t : Copies xs ys) : Copies (x :: xs) (y :: ys)

theorem CopyOf.id {x y : Entity} (h : CopyOf x y) : y.id = x.id := congrArg EntDesc.id h.desc
theorem CopyOf.index {x y : Entity} (h : CopyOf x y) : y.index = x.index := congrArg EntDesc.index h.desc
theorem CopyOf.timeIndex {x y : Entity} (h : CopyOf x y) : y.timeIndex = x.timeIndex := congrArg EntDesc.timeIndex h.desc
theorem CopyOf.secondary {x y : Entity} (h : CopyOf x y) : y.secondary = x.secondary := congrArg EntDesc.secondary h.desc
theorem CopyOf.vars {x y : Entity} (h : CopyOf x y) : y.vars.map describeVar = x.vars.map describeVar := congrArg EntDesc.vars h.desc

theorem Copies.ids {xs ys : List Entity} (h : Copies xs ys) : ys.map Entity.id = xs.map Entity.id := by
  induction h with
  | nil => rfl
  | cons h _ ih => simp [ih, h.id]

theorem Copies.mem_left {xs ys : List Entity} (h : Copies xs ys) {x : Entity} (hx : x ∈ xs) : ∃ y ∈ ys, CopyOf x y := by
  induction h with
  | nil => cases hx
  | cons h _ ih =>
    rcases List.mem_cons.mp hx with rfl | hx
    · exact ⟨_, List.mem_cons_self .., h⟩
    · obtain ⟨y, hy, h⟩ := ih hx
      exact ⟨y, List.mem_cons_of_mem _ hy, h⟩

theorem Copies.mem_right {xs ys : List Entity} (h : Copies xs ys) {y : Entity} (hy : y ∈ ys) : ∃ x ∈ xs, CopyOf x y := by
  induction h with
  | nil => cases hy
  | cons h _ ih =>
    rcases List.mem_cons.mp hy with rfl | hy
    · exact ⟨_, List.mem_cons_self .., h⟩
    · obtain ⟨x, hx, h⟩ := ih hy
      exact ⟨x, List.mem_cons_of_mem _ hx, h⟩

theorem rebuildEntities_ok {lib : Lib} {json : Json} {ty : TimeType} {frames : String → DataFrame} {xs : List Entity}
    (hd : ∀ x ∈ xs, DescribableEntity lib json ty x) (hf : ∀ x ∈ xs, frames x.id = x.df) (hn : (xs.map Entity.id).Nodup) {es0 : ESet}
    (hr : es0.rels = []) (hc : es0.cache = none) (htt : es0.timeType = none ∨ es0.timeType = some ty)
    (hnew : ∀ x ∈ xs, x.id ∉ es0.entities.map Entity.id) :
    ∃ tt ys, rebuildEntities lib json frames (xs.map describeEntity) es0 =
      ({ es0 with entities := es0.entities ++ ys, timeType := tt, cache := none }, none) ∧ Copies xs ys := by
  induction xs generalizing es0 with
  | nil =>
    refine ⟨es0.timeType, [], ?_, .nil⟩
    cases es0
    simp only at hc
    subst hc
    simp [rebuildEntities]
  | cons x xs ih =>
    simp only [List.map_cons, List.nodup_cons] at hn
    obtain ⟨tt, y, hy, htt', hcopy⟩ := rebuildEntity_ok (hd x (List.mem_cons_self ..)) hr htt (hnew x (List.mem_cons_self ..))
    obtain ⟨tt2, ys, hys, hcs⟩ := ih (es0 := { es0 with entities := es0.entities ++ [y], timeType := tt, cache := none })
      (fun z hz => hd z (List.mem_cons_of_mem _ hz)) (fun z hz => hf z (List.mem_cons_of_mem _ hz)) hn.2 hr rfl htt' (fun z hz => by
        simp only [List.map_append, List.map_cons, List.map_nil, List.mem_append, List.mem_singleton, not_or]
        refine ⟨hnew z (List.mem_cons_of_mem _ hz), fun he => ?_⟩
        rw [hcopy.id] at he
        exact hn.1 (he ▸ List.mem_map_of_mem hz))
    refine ⟨tt2, y :: ys, ?_, .cons hcopy hcs⟩
    rw [List.map_cons, rebuildEntities]
    have : (describeEntity x).id = x.id := rfl
    rw [this, hf x (List.mem_cons_self ..), hy]
    simp only
    rw [hys]
    simp

theorem modify_noop {es : ESet} {e : String} {f : Entity → Entity} (h : ∀ x ∈ es.entities, x.id = e → f x = x) : es.modify e f = es := by
  unfold ESet.modify
  have : (es.entities.map fun x => if x.id == e then f x else x) = es.entities := by
    conv => rhs; rw [← List.map_id es.entities]
    apply List.map_congr_left
    intro x hx
    split
    · rename_i he; exact h x hx (beq_iff_eq.mp he)
    · rfl
  rw [this]

theorem ensureType_noop {es : ESet} {e v t : String} (h : ∀ x ∈ es.entities, x.id = e → ∀ y ∈ x.vars, y.id = v → y.type = t) :
    ensureType es e v t = es := by
  apply modify_noop
  intro x hx he
  have : (x.vars.map fun y => if y.id == v && y.type != t then y.createFrom t else y) = x.vars := by
    conv => rhs; rw [← List.map_id x.vars]
    apply List.map_congr_left
    intro y hy
    rw [if_neg]
    · rfl
    · simp only [Bool.and_eq_true, beq_iff_eq, bne_iff_ne, ne_eq, not_and, Classical.not_not]
      exact h x hx he y hy
  rw [this]

/-- A relationship that fits the entities. -/
structure Fits (lib : Lib) (es : ESet) (r : Relationship) : Prop where
  parent : ∃ p ∈ es.entities, p.id = r.parentE ∧ p.index = r.parentV ∧ (∃ v ∈ p.vars, v.id = r.parentV) ∧ (∀ v ∈ p.vars, v.id = r.parentV → v.type = "index")
  child : ∃ c ∈ es.entities, c.id = r.childE ∧ c.index ≠ r.childV ∧ (∃ v ∈ c.vars, v.id = r.childV) ∧ (∀ v ∈ c.vars, v.id = r.childV → v.type = "id")
  dtype : ∀ p ∈ es.entities, p.id = r.parentE → ∀ c ∈ es.entities, c.id = r.childE → p.df.dtype r.parentV = c.df.dtype r.childV

theorem var?_isSome {x : Entity} {v : String} (h : ∃ w ∈ x.vars, w.id = v) : (x.var? v).isNone = false := by
  obtain ⟨w, hw, rfl⟩ := h
  unfold Entity.var?
  cases hf : x.vars.find? fun y => y.id == w.id with
  | none => rw [List.find?_eq_none] at hf; exact absurd (by simp) (hf w hw)
  | some _ => rfl

theorem addRelationship_fits {lib : Lib} {es : ESet} {r : Relationship} (hn : (es.entities.map Entity.id).Nodup) (hobj : lib.numeric "object" = false)
    (hfit : Fits lib es r) (hr : r ∉ es.rels) : addRelationship lib es r = ({ es with rels := es.rels ++ [r], cache := none }, none) := by
  obtain ⟨p, hp, hpe, hpi, hpv, hpt⟩ := hfit.parent
  obtain ⟨c, hc, hce, hci, hcv, hct⟩ := hfit.child
  have hgp : es.get? r.parentE = some p := hpe ▸ get?_of_mem hn hp
  have hgc : es.get? r.childE = some c := hce ▸ get?_of_mem hn hc
  have hup : ∀ x ∈ es.entities, x.id = r.parentE → x = p := by
    intro x hx he
    have := get?_of_mem hn hx
    rw [he, hgp] at this; exact (Option.some.inj this).symm
  have huc : ∀ x ∈ es.entities, x.id = r.childE → x = c := by
    intro x hx he
    have := get?_of_mem hn hx
    rw [he, hgc] at this; exact (Option.some.inj this).symm
  have hdt := hfit.dtype p hp hpe c hc hce
  have e1 : ensureType es r.childE r.childV "id" = es := ensureType_noop fun x hx he => by rw [huc x hx he]; exact hct
  have e2 : ensureType es r.parentE r.parentV "index" = es := ensureType_noop fun x hx he => by rw [hup x hx he]; exact hpt
  have e3 : fixEmptyDtype lib es r.parentE r.parentV r.childE r.childV = es := by
    unfold fixEmptyDtype
    rw [hgp]
    apply modify_noop
    intro x hx he
    rw [huc x hx he, if_neg]
    simp only [Bool.and_eq_true, beq_iff_eq, not_and]
    intro h1 h2
    rw [hdt, h1.2] at h2
    rw [hobj] at h2
    cases h2
  unfold addRelationship
  simp only [hgp, hgc, var?_isSome hpv, var?_isSome hcv, Bool.or_self, Bool.false_eq_true, if_false, hpi, ne_eq, not_true_eq_false]
  rw [if_neg (by simpa using hr)]
  unfold addNewRelationship
  simp only [hci, if_false, var?_isSome hpv, var?_isSome hcv, Bool.or_self, Bool.false_eq_true, e1, e2, e3, ESet.dtypeOf, hgp, hgc, Option.map_some, hdt,
    ne_eq, not_true_eq_false]

theorem rebuildRels_ok {lib : Lib} (hobj : lib.numeric "object" = false) {rs : List Relationship} {es : ESet} (hn : (es.entities.map Entity.id).Nodup)
    (hfit : ∀ r ∈ rs, Fits lib es r) (hnd : (es.rels ++ rs).Nodup) (hc : es.cache = none) :
    rebuildRels lib rs es = ({ es with rels := es.rels ++ rs, cache := none }, none) := by
  induction rs generalizing es with
  | nil =>
    cases es
    simp only at hc
    subst hc
    simp [rebuildRels]
  | cons r rs ih =>
    have hr : r ∉ es.rels := by
      rw [List.nodup_append] at hnd
      exact fun h => hnd.2.2 r h r (List.mem_cons_self ..) rfl
    rw [rebuildRels, addRelationship_fits hn hobj (hfit r (List.mem_cons_self ..)) hr]
    simp only
    rw [ih (es := { es with rels := es.rels ++ [r], cache := none }) hn (fun q hq => by
        obtain ⟨h1, h2, h3⟩ := hfit q (List.mem_cons_of_mem _ hq)
        exact ⟨h1, h2, h3⟩) (by simpa using hnd) rfl]
    simp

theorem insertBy_map {α β : Type} (f : α → β) (le : β → β → Bool) (a : α) (l : List α) :
    insertBy le (f a) (l.map f) = (insertBy (fun x y => le (f x) (f y)) a l).map f := by
  induction l with
  | nil => rfl
  | cons b l ih =>
    simp only [List.map_cons, insertBy]
    split
    · rfl
    · rw [ih]; rfl

theorem isort_map {α β : Type} (f : α → β) (le : β → β → Bool) (l : List α) : isort le (l.map f) = (isort (fun x y => le (f x) (f y)) l).map f := by
  induction l with
  | nil => rfl
  | cons a l ih =>
    simp only [List.map_cons, isort, ih]
    exact insertBy_map f le a _

/-- The last time indexes of all explored entities are there. -/
theorem ltiRound_some {es : ESet} {e : String} {x : Entity} {q : List String} {st : LtiState} (h : ∀ e ∈ st.explored, (st.lti e).isSome) :
    ∀ e' ∈ (ltiRound es e x q st).explored, ((ltiRound es e x q st).lti e').isSome := by
  unfold ltiRound
  simp only
  split
  · intro e' he'
    simp only
    split
    · rfl
    · rename_i hne
      simp only [List.mem_append, List.mem_singleton] at he'
      exact h e' (he'.resolve_right hne)
  · intro e' he'
    simp only
    split
    · rfl
    · exact h e' he'

theorem ltiLoop_some {es : ESet} {todo : List String} {n : Nat} {st st' : LtiState} (h : ∀ e ∈ st.explored, (st.lti e).isSome)
    (hl : ltiLoop es todo n st = some st') : ∀ e ∈ todo, (st'.lti e).isSome := by
  induction n generalizing st with
  | zero => cases hl
  | succ n ih =>
    unfold ltiLoop at hl
    split at hl
    · rename_i hall
      cases hl
      intro e he
      exact h e (by simpa using List.all_eq_true.mp hall e he)
    · split at hl
      · cases hl
      · split at hl
        · cases hl
        · exact ih (ltiRound_some h) hl

theorem addLastTimeIndexes_some {es es' : ESet} {order : List String → List String} (hord : ∀ l, (order l).Perm l) {updated : List String}
    (hne : updated ≠ []) {fuel : Nat} (h : addLastTimeIndexes es order updated fuel = some es') :
    ∃ lti : String → Option Lti, es' = { es with entities := es.entities.map fun x => { x with lti := lti x.id }, cache := none } ∧
      ∀ e ∈ updated, (lti e).isSome := by
  unfold addLastTimeIndexes at h
  rw [if_neg (by simpa using hne)] at h
  split at h
  · cases h
  · rename_i parents hp
    obtain ⟨_, hmem⟩ := parentLoop_spec (es := es) (updated := updated) hp (fun e he => .inl he) (fun e he => .here he) (fun e he => by cases he) (fun e he => by cases he) List.nodup_nil
    unfold ltiRun at h
    split at h
    · cases h
    · rename_i st hl
      cases h
      refine ⟨st.lti, rfl, fun e he => ltiLoop_some (by intro e he; cases he) hl e ?_⟩
      exact (hord parents).mem_iff.mpr ((hmem e).mpr (.here he))

theorem CopyOf.var_of {x y : Entity} (h : CopyOf x y) {v : Var} (hv : v ∈ y.vars) : ∃ w ∈ x.vars, w.id = v.id ∧ w.type = v.type := by
  have := List.mem_map_of_mem (f := describeVar) hv
  rw [h.vars] at this
  obtain ⟨w, hw, he⟩ := List.mem_map.mp this
  exact ⟨w, hw, congrArg VarDesc.id he, congrArg VarDesc.type he⟩

theorem CopyOf.var_to {x y : Entity} (h : CopyOf x y) {v : Var} (hv : v ∈ x.vars) : ∃ w ∈ y.vars, w.id = v.id ∧ w.type = v.type := by
  have := List.mem_map_of_mem (f := describeVar) hv
  rw [← h.vars] at this
  obtain ⟨w, hw, he⟩ := List.mem_map.mp this
  exact ⟨w, hw, congrArg VarDesc.id he, congrArg VarDesc.type he⟩

theorem Copies.describe {xs ys : List Entity} (h : Copies xs ys) {f : String → Option Lti} (hf : ∀ x ∈ xs, (f x.id).isSome = x.lti.isSome) :
    (ys.map fun y => { y with lti := f y.id }).map describeEntity = xs.map describeEntity := by
  induction h with
  | nil => rfl
  | @cons x y xs ys h _ ih =>
    simp only [List.map_cons]
    rw [ih fun z hz => hf z (List.mem_cons_of_mem _ hz)]
    congr 1
    have h1 : describeEntity { y with lti := f y.id } = { describeEntity y with hasLti := (f y.id).isSome } := rfl
    rw [h1, h.desc, h.id, hf x (List.mem_cons_self ..)]
    rfl

theorem CopyOf.readBack {x y : Entity} (h : CopyOf x y) {l : Option Lti} (hl : l.isSome = x.lti.isSome) : ReadBack x { y with lti := l } where
  id := h.id
  index := h.index
  timeIndex := h.timeIndex
  secondary := h.secondary
  df := h.df
  lti := by
    simp only
    cases l <;> cases hx : x.lti <;> simp_all
  vars := by
    have := congrArg (List.map fun d : VarDesc => (d.id, d.type, d.name, d.interesting, d.description)) h.vars
    simpa [List.map_map, Function.comp_def, describeVar] using this

/-- The entities in the order of their descriptions. -/
def byId (l : List Entity) : List Entity := isort (fun a b => decide (a.id ≤ b.id)) l

theorem describe_byId (es : ESet) : (describe es).entities = (byId es.entities).map describeEntity := by
  unfold describe byId
  simp only
  rw [isort_map]
  rfl

theorem mem_byId {l : List Entity} {x : Entity} : x ∈ byId l ↔ x ∈ l := (isort_perm _ l).mem_iff

theorem describe_sorted (es : ESet) : isort (fun a b => decide (a.id ≤ b.id)) (describe es).entities = (describe es).entities := by
  apply isort_of_sorted
  exact isort_sorted _ (fun a b => by simpa using String.le_total a.id b.id) (fun a b c h1 h2 => by
    simp only [decide_eq_true_eq] at *; exact String.le_trans h1 h2) _

/-- The entities and relationships read back. -/
theorem rebuild_parts {lib : Lib} {json : Json} {ty : TimeType} {es : ESet} (h : Describable lib json ty es) {frames : String → DataFrame}
    (hf : ∀ x ∈ es.entities, frames x.id = x.df) :
    ∃ tt ys, Copies (byId es.entities) ys ∧
      rebuildEntities lib json frames (describe es).entities ESet.empty = ({ entities := ys, rels := [], timeType := tt, cache := none }, none) ∧
      rebuildRels lib es.rels { entities := ys, rels := [], timeType := tt, cache := none } =
        ({ entities := ys, rels := es.rels, timeType := tt, cache := none }, none) := by
  have hids : ((byId es.entities).map Entity.id).Nodup := ((isort_perm _ es.entities).map Entity.id).nodup_iff.mpr h.schema.ids
  obtain ⟨tt, ys, h1, hc⟩ := rebuildEntities_ok (es0 := ESet.empty) (fun x hx => h.entities x (mem_byId.mp hx)) (fun x hx => hf x (mem_byId.mp hx)) hids rfl rfl
    (.inl rfl) (fun x _ hx => by cases hx)
  refine ⟨tt, ys, hc, ?_, ?_⟩
  · rw [describe_byId, h1]
    rfl
  · have hyids : (ys.map Entity.id).Nodup := hc.ids ▸ hids
    refine (rebuildRels_ok (es := { entities := ys, rels := [], timeType := tt, cache := none }) h.object hyids ?_ (by simpa using h.schema.once) rfl).trans (by simp)
    intro r hr
    obtain ⟨p, hp, c, hcm, hpe, hce, hpi, hci⟩ := h.schema.linked r hr
    obtain ⟨p', hp', hpc⟩ := hc.mem_left (mem_byId.mpr hp)
    obtain ⟨c', hc', hcc⟩ := hc.mem_left (mem_byId.mpr hcm)
    obtain ⟨⟨vc, hvc, hvci, hvct⟩, _⟩ := h.links r hr p hp hpe c hcm hce
    obtain ⟨vp, rest, hvars, hvpi, hvpt⟩ := (h.entities p hp).indexFirst
    have hvp : vp ∈ p.vars := by rw [hvars]; exact List.mem_cons_self ..
    refine ⟨⟨p', hp', hpc.id.trans hpe, hpc.index.trans hpi, ?_, ?_⟩, ⟨c', hc', hcc.id.trans hce, hcc.index ▸ hci, ?_, ?_⟩, ?_⟩
    · obtain ⟨w, hw, he, _⟩ := hpc.var_to hvp
      exact ⟨w, hw, he.trans (hvpi.trans hpi)⟩
    · intro v hv he
      obtain ⟨w, hw, hwi, hwt⟩ := hpc.var_of hv
      have := var_id_unique (h.entities p hp).varIds hw hvp (hwi.trans (he.trans (hpi.symm.trans hvpi.symm)))
      rw [← hwt, this, hvpt]
    · obtain ⟨w, hw, he, _⟩ := hcc.var_to hvc
      exact ⟨w, hw, he.trans hvci⟩
    · intro v hv he
      obtain ⟨w, hw, hwi, hwt⟩ := hcc.var_of hv
      have := var_id_unique (h.entities c hcm).varIds hw hvc (hwi.trans (he.trans hvci.symm))
      rw [← hwt, this, hvct]
    · intro a ha hae b hb hbe
      obtain ⟨a', ha', hac⟩ := hc.mem_right ha
      obtain ⟨b', hb', hbc⟩ := hc.mem_right hb
      rw [hac.df, hbc.df]
      exact (h.links r hr a' (mem_byId.mp ha') (hac.id.symm.trans hae) b' (mem_byId.mp hb') (hbc.id.symm.trans hbe)).2

/-- Every entity of the first set is in the second, as far as last time indexes are concerned. -/
def Within (a b : ESet) : Prop :=
  (∀ r ∈ a.rels, r ∈ b.rels) ∧ ∀ x ∈ a.entities, ∃ y ∈ b.entities, y.id = x.id ∧ y.index = x.index ∧ y.timeIndex = x.timeIndex ∧ y.df = x.df

theorem hasTime_within {a b : ESet} (h : Within a b) {e : String} {r : Row} {m : Int} (ht : HasTime a e r m) : HasTime b e r m := by
  induction ht with
  | own hx hr ht hm =>
    obtain ⟨y, hy, h1, _, h3, h4⟩ := h.2 _ hx
    rw [← h1]
    exact .own hy (h4 ▸ hr) (h3.trans ht) hm
  | child hx hr hc hrel hp hch hs hl _ ih =>
    obtain ⟨y, hy, h1, h2, h3, h4⟩ := h.2 _ hx
    obtain ⟨c, hc', g1, g2, g3, g4⟩ := h.2 _ hc
    rw [← h1]
    exact .child hy (h4 ▸ hr) hc' (h.1 _ hrel) (hp.trans h1.symm) (hch.trans g1.symm) (g4 ▸ hs) (h2 ▸ hl) (g1 ▸ ih)

theorem ltiOk_within {a b : ESet} (hab : Within a b) (hba : Within b a) {x y : Entity} (hid : y.id = x.id) (hidx : y.index = x.index) (hdf : y.df = x.df)
    {l : Lti} (h : LtiOk a x l) : LtiOk b y l := by
  obtain ⟨v, rfl, hv⟩ := h
  refine ⟨v, by rw [hidx, hdf], fun r hr => ?_⟩
  rw [hdf] at hr
  rw [hid]
  exact isLatest_congr (fun m => ⟨hasTime_within hab, hasTime_within hba⟩) (hv r hr)

theorem orderly_within {a b : ESet} (hab : Within a b) (hba : Within b a) (h : Orderly a) : Orderly b := by
  refine ⟨fun r hr r' hr' => h.single r (hba.1 r hr) r' (hba.1 r' hr'), ?_, ?_⟩
  · intro x hx t ht r hr
    obtain ⟨y, hy, _, _, h3, h4⟩ := hba.2 x hx
    exact h.times y hy t (h3.trans ht) r (h4 ▸ hr)
  · intro rel hrel c hc hid s hs s' hs' hl ⟨m, hm⟩
    obtain ⟨y, hy, h1, _, _, h4⟩ := hba.2 c hc
    obtain ⟨k, hk⟩ := h.uniform rel (hba.1 _ hrel) y hy (h1.trans hid) s (h4 ▸ hs) s' (h4 ▸ hs') hl ⟨m, h1 ▸ hasTime_within hba hm⟩
    exact ⟨k, h1 ▸ hasTime_within hab hk⟩

theorem Copies.within {es : ESet} {ys : List Entity} (h : Copies (byId es.entities) ys) {tt : Option TimeType} :
    Within es { entities := ys, rels := es.rels, timeType := tt, cache := none } ∧ Within { entities := ys, rels := es.rels, timeType := tt, cache := none } es := by
  refine ⟨⟨fun _ h => h, fun x hx => ?_⟩, ⟨fun _ h => h, fun y hy => ?_⟩⟩
  · obtain ⟨y, hy, hc⟩ := h.mem_left (mem_byId.mpr hx)
    exact ⟨y, hy, hc.id, hc.index, hc.timeIndex, hc.df⟩
  · obtain ⟨x, hx, hc⟩ := h.mem_right hy
    exact ⟨x, mem_byId.mp hx, hc.id.symm, hc.index.symm, hc.timeIndex.symm, hc.df.symm⟩

end FT
