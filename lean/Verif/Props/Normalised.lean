import Verif.Lemmas.Normalised
import Verif.Props.Replaced
/-! # `normalize_entity`: exactly what is accepted and what comes out (C06) -/
namespace FT
open Spec

theorem Prepared.cells_eq {x : Entity} {a : NormArgs} {args : EntityArgs} (hp : Prepared x a args) (c : String) :
    args.df.rows.map (fun r => r c) = (newFrame x a).rows.map fun r => r c := by
  unfold newFrame
  simp only [List.map_map]
  rw [← hp.keys, List.map_map]
  refine List.map_congr_left fun r hr => ?_
  simp only [Function.comp, hp.cells r hr c, Option.getD_some]

theorem Prepared.key_mem {x : Entity} {a : NormArgs} {args : EntityArgs} (hp : Prepared x a args) : a.index ∈ args.df.cols := by
  rw [hp.cols]; unfold newCols; simp

theorem Prepared.withIndex {x : Entity} {a : NormArgs} {args : EntityArgs} (hp : Prepared x a args) : Spec.withIndex a.index args.df = args.df := if_pos hp.key_mem

theorem Prepared.types_nodup {x : Entity} {a : NormArgs} {args : EntityArgs} (hp : Prepared x a args) (hn : args.df.cols.Nodup) : (args.types.map Prod.fst).Nodup := by
  rw [hp.types]
  rw [hp.cols] at hn
  exact (List.nodup_append.mp hn).1

theorem Prepared.timeType {lib : Lib} (hl : LibOk lib) {x : Entity} {a : NormArgs} {args : EntityArgs} (hp : Prepared x a args) (c : String) :
    lib.timeType (Spec.withIndex a.index args.df) c = lib.timeType (newFrame x a) c :=
  hl.time _ _ c (by rw [hp.withIndex, hp.cells_eq])

theorem Prepared.index_eq {x : Entity} {a : NormArgs} {args : EntityArgs} (hp : Prepared x a args) {i : String} (h : IndexIs args i) : i = a.index := by
  rcases h with ⟨h, _⟩ | ⟨h, _⟩
  · rw [hp.index] at h; exact (Option.some.inj h).symm
  · rw [hp.index] at h; cases h

/-- The entity that is created from the prepared call. -/
theorem isNew_of {lib : Lib} {es : ESet} {x n : Entity} {a : NormArgs} {args : EntityArgs} {tt : Option TimeType} (hp : Prepared x a args)
    (hnd : args.df.cols.Nodup) (hne : (newTime x a).map (fun p => p.1) ≠ some a.index) (hc : IsCreated lib es args tt n) : IsNew lib x a n := by
  have hi := hp.index_eq hc.index
  have hrows : n.df.rows.Perm args.df.rows := by have := hc.rows; rwa [hi, hp.withIndex] at this
  have hidx : a.index ∉ a.additional ++ a.copy := by
    rw [hp.cols] at hnd
    unfold newCols at hnd
    have := (List.nodup_append.mp (List.nodup_append.mp hnd).1).1
    rw [List.cons_append, List.nodup_cons] at this
    exact this.1
  refine ⟨hc.id.trans hp.id, hi, hc.timeIndex.trans hp.timeIndex, ?_, ?_, by rw [hc.first, hi], hc.vars, ?_, ?_, ?_, ?_, ?_, ?_, ?_⟩
  · rw [hc.secondary, hp.secondary]
    cases hs : newSecondary a with
    | none => rfl
    | some p =>
      obtain ⟨d, s, cols⟩ := p
      have : d ∉ cols := by
        rw [hp.cols] at hnd
        unfold newCols at hnd
        rw [hs] at hnd
        exact (List.nodup_cons.mp (List.nodup_append.mp hnd).2.1).1
      simp [this]
  · have := hc.cols
    rwa [hi, hp.withIndex, hp.cols] at this
  · rw [← hp.keys]
    exact hrows.map _
  · intro r hr c _
    exact hp.cells r (hrows.mem_iff.mp hr) c
  · intro hb
    have hr := hc.asGiven
    rw [hi, hp.withIndex, hp.timeIndex, hp.sorted] at hr
    rw [hr, hp.keys]
    cases hk : a.makeTime with
    | col c => right; simp [hb c hk]
    | _ =>
      cases hn : newTime x a with
      | none => left; rfl
      | some p => right; rfl
  · intro c hk hx
    have := hc.ordered c (by rw [hp.timeIndex]; unfold newTime; rw [hk]; rfl) (by
      rw [hp.sorted, hk]
      simp only [beq_eq_false_iff_ne, ne_eq]
      exact fun h => hx h.symm)
    rwa [hi] at this
  · intro v hv hvi
    have := hc.types v hv
    revert this
    generalize v.type = t
    intro this
    cases this with
    | date h => rw [hp.timeIndex, hvi] at h; exact absurd h hne
    | number h => rw [hp.timeIndex, hvi] at h; exact absurd h hne
    | index => rfl
    | given _ h => exact absurd (hvi.trans hi.symm) h
    | inferred _ h => exact absurd (hvi.trans hi.symm) h
  · intro v hv hvt
    rw [hc.timeIndex] at hvt
    have := hc.types v hv
    revert this
    generalize v.type = t
    intro this
    cases this with
    | date h hd => rw [hd]; rfl
    | number h hd => rw [hd]; rfl
    | index h => exact absurd hvt h
    | given h => exact absurd hvt h
    | inferred h => exact absurd hvt h
  · intro v hv hvc hvt
    rw [hc.timeIndex] at hvt
    have := hc.types v hv
    revert this
    generalize v.type = t
    intro this
    cases this with
    | date h => exact absurd h hvt
    | number h => exact absurd h hvt
    | index h h' => rw [hi] at h'; rw [h'] at hvc; exact absurd hvc hidx
    | given h h' t ht =>
      obtain ⟨w, hw, hw1, hw2⟩ := hp.carried _ ht hvc
      simp only at hw2
      subst hw2
      exact ⟨w, hw, hw1, rfl⟩
    | inferred h h' h'' =>
      refine absurd ?_ h''
      rw [hp.types]
      exact List.mem_append_left _ (List.mem_cons_of_mem _ hvc)

/-- The parts of a call of `normalize_entity` that succeeds. -/
theorem normalize_parts {lib : Lib} {es es' : ESet} {a : NormArgs} {x : Entity} (hx : es.get? a.base = some x)
    (h : normalizeEntity lib es a = (es', none)) : a.new ≠ a.base ∧ normError x a = none ∧ ∃ args tt n, normEntityArgs x a = .ok args ∧
      entityArgsError args = none ∧ newEntity lib es args = (tt, .ok n) ∧
      normFinish lib { es with entities := setEntity es.entities n, timeType := tt, cache := none } a = (es', none) := by
  unfold normalizeEntity at h
  rw [hx] at h
  simp only at h
  split at h
  · cases h
  · rename_i hne
    split at h
    · cases h
    · rename_i herr
      split at h
      · cases h
      · rename_i args hargs
        split at h
        · cases h
        · rename_i es1 hes1
          obtain ⟨h1, tt, n, h2, rfl⟩ := create_iff.mp hes1
          exact ⟨hne, herr, args, tt, n, hargs, h1, h2, h⟩

/-- **C06.** What `normalize_entity` does to an entity set: the new entity is as specified, its time index, secondary time
index, types and the order of its rows included; the base entity is without the moved columns and otherwise as before, with
the key as a foreign key; the relationship is there; everything else is as before. -/
theorem C06_both (lib : Lib) (hl : LibOk lib) (es es' : ESet) (a : NormArgs) (x : Entity) (hx : es.get? a.base = some x) (hcx : Coherent x)
    (h : normalizeEntity lib es a = (es', none)) :
    ∃ n y, es'.get? a.new = some n ∧ es'.get? a.base = some y ∧ IsNew lib x a n ∧ IsBase x a y ∧
      es'.rels = (if ⟨a.new, a.index, a.base, a.index⟩ ∈ es.rels then es.rels else es.rels ++ [⟨a.new, a.index, a.base, a.index⟩]) ∧
      es'.timeType = (match n.timeIndex with
        | some t => lib.timeType n.df t
        | none => es.timeType) ∧
      ∀ e, e ≠ a.new → e ≠ a.base → es'.get? e = es.get? e := by
  obtain ⟨hne, herr, args, tt, n, hargs, he, hn, hfin⟩ := normalize_parts hx h
  obtain ⟨e1, e2, e3, e4, e5, e6, e7⟩ := (normError_iff hcx a).mp herr
  have hnd : args.df.cols.Nodup := ((validateParams_iff ..).mp (newEntity_iff.mp hn).1).1
  have hp := normEntityArgs_prepared hcx e5 hargs hnd
  have hcr := newEntity_created hl (hp.types_nodup hnd) hn
  have hti : (newTime x a).map (fun p => p.1) ≠ some a.index := time_ne_index (hp.cols ▸ hnd) fun c hc => (e6 c hc).2
  have hnew := isNew_of hp hnd hti hcr
  have hg1 : ∀ e, ({ es with entities := setEntity es.entities n, timeType := tt, cache := none } : ESet).get? e = if a.new = e then some n else es.get? e := by
    intro e
    show (setEntity es.entities n).find? _ = _
    rw [get?_setEntity, hnew.id]
    rfl
  generalize hes1 : ({ es with entities := setEntity es.entities n, timeType := tt, cache := none } : ESet) = es1 at hg1 hfin
  have hb1 : es1.get? a.base = some x := by rw [hg1, if_neg hne, hx]
  obtain ⟨s1, s2, s3, s4⟩ := normFinish_start hcx hb1 (by rw [hfin])
  obtain ⟨es2, m1, m2, m3, m4, m5⟩ := normFinish_middle (lib := lib) hcx hb1 s1 s2 s3 s4
  have hki : a.index ∈ n.vars.map Var.id := by
    rw [hnew.vars]
    exact List.mem_of_head? hnew.first
  have hbi : a.index ∈ (baseAfter x a).vars.map Var.id := by
    rw [baseAfter_ids, hcx.vars]
    exact List.mem_filter.mpr ⟨s3, by simpa using s4⟩
  obtain ⟨y, es3, r1, r2, r3, r4, r5, _, r7⟩ := normFinish_relate (lib := lib) (es := es2) (a := a) (x := x) (n := n) m1 (by rw [m2 _ hne, hg1, if_pos rfl]) hne
    hnew.index hki hnew.keyType (Ne.symm e7) hbi
  have htt : es1.timeType = tt := by rw [← hes1]
  have hrel : es1.rels = es.rels := by rw [← hes1]
  have htime : tt = (match n.timeIndex with
        | some t => lib.timeType n.df t
        | none => es.timeType) := by
    cases ht : n.timeIndex with
    | none => exact hcr.noTime (hcr.timeIndex ▸ ht)
    | some t => exact (hcr.time t (hcr.timeIndex ▸ ht)).1
  rw [m5, r7] at hfin
  rw [m3, hrel] at hfin
  have hself : SameButDtype (baseAfter x a) (baseAfter x a) := ⟨_, rfl⟩
  by_cases hm : (⟨a.new, a.index, a.base, a.index⟩ : Relationship) ∈ es.rels
  · rw [if_pos hm] at hfin
    simp only [Prod.mk.injEq, and_true] at hfin
    subst hfin
    refine ⟨n, baseAfter x a, ?_, m1, hnew, isBase_of hself, ?_, ?_, ?_⟩
    · show es2.get? _ = _
      rw [m2 _ hne, hg1, if_pos rfl]
    · rw [if_pos hm]
      exact m3.trans hrel
    · exact m4.trans (htt.trans htime)
    · intro e h1 h2
      show es2.get? _ = _
      rw [m2 _ h2, hg1, if_neg (Ne.symm h1)]
  · rw [if_neg hm] at hfin
    by_cases hdt : n.df.dtype a.index = y.df.dtype a.index
    · rw [if_neg (by simpa using hdt)] at hfin
      simp only [Prod.mk.injEq, and_true] at hfin
      subst hfin
      refine ⟨n, y, ?_, r2, hnew, isBase_of r1, ?_, ?_, ?_⟩
      · show es3.get? _ = _
        rw [r4 _ hne, m2 _ hne, hg1, if_pos rfl]
      · rw [if_neg hm]
      · exact r3.trans (m4.trans (htt.trans htime))
      · intro e h1 h2
        show es3.get? _ = _
        rw [r4 _ h2, m2 _ h2, hg1, if_neg (Ne.symm h1)]
    · rw [if_pos hdt] at hfin
      cases hfin

/-- **C06.** Exactly the calls described are accepted, for a new id in an entity set with well-formed relationships, as long as
data conversion neither fails nor changes dtypes. -/
theorem C06_accepted_iff (lib : Lib) (hl : LibOk lib) (hconv : ∀ f ts, ∃ g, lib.convert f ts = .ok g ∧ g.dtype = f.dtype)
    (hobj : lib.numeric "object" = false) (es : ESet) (hes : SchemaOk es) (a : NormArgs) (hn : a.new ∉ es.entities.map Entity.id)
    (x : Entity) (hx : es.get? a.base = some x) (hcx : Coherent x) :
    (normalizeEntity lib es a).2 = none ↔ Normalisable lib es x a := by
  have hconv' : ∀ f ts, ∃ g, lib.convert f ts = .ok g := fun f ts => by obtain ⟨g, hg, _⟩ := hconv f ts; exact ⟨g, hg⟩
  have hsec : ∀ {args : EntityArgs}, Prepared x a args → ∀ d, d ∈ args.secondary.map Prod.fst ↔ ∃ p, newSecondary a = some p ∧ p.1 = d := by
    intro args hp d
    rw [hp.secondary]
    cases newSecondary a with
    | none => simp
    | some p => obtain ⟨p1, p2, p3⟩ := p; simpa using eq_comm
  constructor
  · intro h
    obtain ⟨hne, herr, args, tt, n, hargs, he, hnn, hfin⟩ := normalize_parts (es' := (normalizeEntity lib es a).1) hx (Prod.ext rfl h)
    obtain ⟨e1, e2, e3, e4, e5, e6, e7⟩ := (normError_iff hcx a).mp herr
    have hnd : args.df.cols.Nodup := ((validateParams_iff ..).mp (newEntity_iff.mp hnn).1).1
    have hp := normEntityArgs_prepared hcx e5 hargs hnd
    obtain ⟨k1, k2, k3, k4, k5⟩ := (normEntityArgs_iff hcx e5 fun c hc => (e6 c hc).2).mp ⟨args, hargs, hnd⟩
    obtain ⟨i, hacc⟩ := (C85_accepted_iff lib hl hconv' es hes args (by rw [hp.id]; exact hn) (hp.types_nodup hnd)).mp (by
      rw [(create_iff (es' := { es with entities := setEntity es.entities n, timeType := tt, cache := none })).mpr ⟨he, tt, n, hnn, rfl⟩])
    have hi := hp.index_eq hacc.index
    subst hi
    refine ⟨hne, e1, e7, k1, e5, fun c hc => (e6 c hc).2, k2, k3, k4, k5, ?_, ?_⟩
    · intro p hpt
      obtain ⟨_, ty, t1, t2⟩ := hacc.time p.1 (by rw [hp.timeIndex, hpt]; rfl)
      rw [hp.timeType hl] at t1
      exact ⟨ty, t1, t2⟩
    · intro p hps
      obtain ⟨s, hs, hsp⟩ := List.mem_map.mp ((hsec hp p.1).mpr ⟨p, hps, rfl⟩)
      obtain ⟨_, ty, t1, t2⟩ := hacc.secondary s hs
      rw [hp.timeType hl, hsp] at t1
      refine ⟨ty, t1, ?_⟩
      rw [hp.timeIndex] at t2
      cases hq : newTime x a with
      | none => rw [hq] at t2; exact t2
      | some q => rw [hq] at t2; show lib.timeType _ _ = _; rw [← hp.timeType hl]; exact t2
  · intro h
    have hparts := h.distinct
    unfold newCols at hparts
    have hp1 := (List.nodup_append.mp (List.nodup_append.mp hparts).1).1
    rw [List.cons_append, List.nodup_cons, List.nodup_append] at hp1
    have herr : normError x a = none := (normError_iff hcx a).mpr ⟨h.timeVar, hp1.2.1, hp1.2.2.1, hp1.1, h.moved,
      fun c hc => ⟨h.known c (List.mem_cons_of_mem _ (h.named c hc)), h.named c hc⟩, h.key⟩
    obtain ⟨args, hargs, hnd⟩ := (normEntityArgs_iff hcx h.moved h.named).mpr ⟨h.known, h.base, h.fresh, h.one, h.distinct⟩
    have hp := normEntityArgs_prepared hcx h.moved hargs hnd
    have hti := time_ne_index h.distinct h.named
    have hacc : Acceptable lib es args a.index := by
      refine ⟨.inl ⟨hp.index, fun hm => by rw [hp.noMake] at hm; cases hm⟩, ?_, ?_, hnd, ?_, ?_, ?_, ?_⟩
      · intro t ht hh
        rw [hp.index] at hh
        rw [hp.timeIndex, ← hh] at ht
        exact hti ht
      · intro ht
        rw [hp.timeIndex, Option.map_eq_none_iff] at ht
        exact hp.lone ht
      · intro t ht
        rw [hp.timeIndex] at ht
        obtain ⟨p, hpt, rfl⟩ := Option.map_eq_some_iff.mp ht
        refine ⟨?_, ?_⟩
        · rw [hp.cols]
          unfold newCols
          cases hk : a.makeTime with
          | col c =>
            have := h.named c hk
            unfold newTime at hpt
            rw [hk] at hpt
            cases hpt
            exact List.mem_append_left _ (List.mem_append_left _ (List.mem_cons_of_mem _ this))
          | no => unfold newTime at hpt; rw [hk] at hpt; cases hpt
          | _ =>
            refine List.mem_append_left _ (List.mem_append_right _ ?_)
            unfold timeColumn
            rw [hk, hpt]
            simp
        · obtain ⟨ty, t1, t2⟩ := h.time p hpt
          exact ⟨ty, by rw [hp.timeType hl]; exact t1, t2⟩
      · intro p hpm
        left
        rw [hp.cols]
        unfold newCols
        refine List.mem_append_left _ ?_
        rw [← hp.types]
        exact List.mem_map_of_mem hpm
      · rw [hp.withIndex, hp.keys, ← firstRows_keys]
        exact firstRows_nodup ..
      · intro s hs
        obtain ⟨p, hps, hpe⟩ := (hsec hp s.1).mp (List.mem_map_of_mem hs)
        obtain ⟨ty, t1, t2⟩ := h.secondary p hps
        refine ⟨.inl ?_, ty, by rw [hp.timeType hl, ← hpe]; exact t1, ?_⟩
        · rw [hp.cols]
          unfold newCols
          rw [hps]
          refine List.mem_append_right _ ?_
          rw [← hpe]
          exact List.mem_cons_self ..
        · rw [hp.timeIndex]
          cases hq : newTime x a with
          | none => rw [hq] at t2; exact t2
          | some q => rw [hq] at t2; show lib.timeType _ _ = _; rw [hp.timeType hl]; exact t2
    have hcre := (C85_accepted_iff lib hl hconv' es hes args (by rw [hp.id]; exact hn) (hp.types_nodup hnd)).mpr ⟨_, hacc⟩
    obtain ⟨he, tt, n, hnn, hes1⟩ := create_iff.mp (show entityFromDataframe lib es args = ((entityFromDataframe lib es args).1, none) from Prod.ext rfl hcre)
    have hcr := newEntity_created hl (hp.types_nodup hnd) hnn
    have hnew := isNew_of hp hnd hti hcr
    have hdt : n.df.dtype a.index = x.df.dtype a.index := by
      obtain ⟨_, i, link, g, i1, _, _, i4, _, _, _, rfl⟩ := newEntity_iff.mp hnn
      have hi := hp.index_eq i1
      subst hi
      obtain ⟨g', g1, g2⟩ := hconv (Spec.withIndex a.index args.df) (allTypes lib link (Spec.withIndex a.index args.df) args a.index)
      rw [i4] at g1
      cases g1
      have : ∀ (f : DataFrame) i ti s, (orderedFrame f i ti s).dtype = f.dtype := by
        intro f i ti s
        unfold orderedFrame
        split
        · split <;> rfl
        · rfl
      simp only [this]
      rw [g2, hp.withIndex, hp.dtype]
    unfold normalizeEntity
    rw [hx]
    simp only [if_neg h.apart, herr, hargs]
    rw [show entityFromDataframe lib es args = ((entityFromDataframe lib es args).1, none) from Prod.ext rfl hcre]
    simp only
    rw [hes1]
    have hg1 : ∀ e, ({ es with entities := setEntity es.entities n, timeType := tt, cache := none } : ESet).get? e = if a.new = e then some n else es.get? e := by
      intro e
      show (setEntity es.entities n).find? _ = _
      rw [get?_setEntity, hnew.id]
      rfl
    generalize ({ es with entities := setEntity es.entities n, timeType := tt, cache := none } : ESet) = es1 at hg1
    have hb1 : es1.get? a.base = some x := by rw [hg1, if_neg h.apart, hx]
    have s3 := h.known a.index (List.mem_cons_self ..)
    have s4 : a.index ∉ a.additional := fun hm => hp1.1 (List.mem_append_left _ hm)
    obtain ⟨es2, m1, m2, m3, m4, m5⟩ := normFinish_middle (lib := lib) hcx hb1 hp1.2.1
      (fun v hv => h.known v (List.mem_cons_of_mem _ (List.mem_append_left _ hv))) s3 s4
    have hki : a.index ∈ n.vars.map Var.id := by
      rw [hnew.vars]
      exact List.mem_of_head? hnew.first
    have hbi : a.index ∈ (baseAfter x a).vars.map Var.id := by
      rw [baseAfter_ids, hcx.vars]
      exact List.mem_filter.mpr ⟨s3, by simpa using s4⟩
    obtain ⟨y, es3, r1, r2, r3, r4, r5, r6, r7⟩ := normFinish_relate (lib := lib) (es := es2) (a := a) (x := x) (n := n) m1 (by rw [m2 _ h.apart, hg1, if_pos rfl]) h.apart
      hnew.index hki hnew.keyType (Ne.symm h.key) hbi
    have hy := r6 (by
      show ((x.df.dtype a.index) == "object" && _) = false
      rw [hdt]
      by_cases ho : x.df.dtype a.index = "object"
      · rw [ho, hobj]; rfl
      · simp [ho])
    rw [m5, r7]
    by_cases hm : (⟨a.new, a.index, a.base, a.index⟩ : Relationship) ∈ es2.rels
    · rw [if_pos hm]
    · rw [if_neg hm, if_neg]
      rw [hy]
      show ¬ n.df.dtype a.index ≠ x.df.dtype a.index
      simpa using hdt

namespace NormalisedExample

def norm : NormArgs := { base := "orders", new := "towns", index := "cust", additional := ["city"], makeSecondary := [("t", ["n"])], newSecondary := some "u" }

end NormalisedExample

/-- A call with a secondary time index succeeds and its entity is as expected; the hypotheses of the theorems are met. -/
example : LibOk EsExample.lib ∧ (∀ f ts, ∃ g, EsExample.lib.convert f ts = .ok g ∧ g.dtype = f.dtype) ∧ EsExample.lib.numeric "object" = false ∧
    (∀ x ∈ EsExample.es3.entities, Coherent x) ∧ (EsExample.es3.get? "orders").isSome ∧
    NormalisedExample.norm.new ∉ EsExample.es3.entities.map Entity.id ∧
    (normalizeEntity EsExample.lib EsExample.es3 NormalisedExample.norm).2 = none ∧
    (((normalizeEntity EsExample.lib EsExample.es3 NormalisedExample.norm).1.get? "towns").map fun n =>
      (n.timeIndex, n.secondary, n.vars.map (fun v => (v.id, v.type)))) =
      some (some "first_orders_time", [("u", ["n", "u"])],
        [("cust", "index"), ("u", "categorical"), ("n", "categorical"), ("city", "categorical"), ("first_orders_time", "datetime_time_index")]) ∧
    (((normalizeEntity EsExample.lib EsExample.es3 NormalisedExample.norm).1.get? "towns").map fun n =>
      n.df.rows.map fun r => [r "cust", r "first_orders_time", r "u", r "n"]) =
      some [[.num 8, .num 10, .num 10, .num 2], [.num 7, .num 20, .num 30, .num 1]] :=
  ⟨CreatedExample.lib_ok, fun f _ => ⟨f, rfl, rfl⟩, rfl, ReplacedExample.coherent, by decide, by decide, by decide, by decide, by decide⟩

end FT
