import Verif.Spec.Replaced
import Verif.Lemmas.Created
/-! # Lemmas on replacing data and changing variables -/
namespace FT
open Spec

/-- `update_data` when it succeeds. -/
theorem update_iff {lib : Lib} {es es' : ESet} {e : String} {df : DataFrame} {sorted : Bool} {x : Entity} (hx : es.get? e = some x)
    (hi : x.index ∈ x.vars.map Var.id) :
    updateData lib es e df sorted = (es', none) ↔ df.cols.length = x.vars.length ∧ (∀ v ∈ x.vars, v.id ∈ df.cols) ∧
      let f : DataFrame := { df with cols := x.vars.map Var.id }
      (df.rows.map fun r => r x.index).Nodup ∧ ∃ tt, TimeFits lib es.timeType tt f x.timeIndex ∧
        checkSecondary lib tt (orderedFrame f x.index x.timeIndex sorted) x.secondary = none ∧
        es' = { es.modify e (fun _ => { x with vars := x.vars.map (retype lib f x.index x.timeIndex), secondary := addOwnColumn x.secondary
                                               df := orderedFrame f x.index x.timeIndex sorted }) with timeType := tt, cache := none } := by
  unfold updateData
  rw [hx]
  simp only
  by_cases hlen : df.cols.length = x.vars.length
  · rw [if_neg (by simpa using hlen)]
    by_cases hall : (x.vars.all fun v => df.cols.contains v.id) = true
    · have hall' : ∀ v ∈ x.vars, v.id ∈ df.cols := by simpa using hall
      rw [if_pos hall, setIndex_of (x := { x with df := { df with cols := x.vars.map Var.id } }) (i := x.index) hi hi]
      by_cases hnd : (df.rows.map fun r => r x.index).Nodup
      · rw [if_pos hnd]
        simp only [hlen, true_and, hnd]
        rw [and_iff_right hall']
        have hvars : x.vars.map Var.id = (x.vars.map fun y => if y.id == x.index then y.createFrom "index" else y).map Var.id := by
          rw [List.map_map]
          apply List.map_congr_left
          intro z _
          simp only [Function.comp]
          split <;> rfl
        cases ht : x.timeIndex with
        | none =>
          simp only
          have hsec := fun y => setSecondary_iff (lib := lib) (tt := es.timeType) (sec := x.secondary) (y := y)
            (x := { x with vars := x.vars.map fun y => if y.id == x.index then y.createFrom "index" else y, timeIndex := none
                           df := { df with cols := x.vars.map Var.id } })
          simp only [orderedFrame, TimeFits, exists_eq_left]
          generalize Entity.setSecondary lib es.timeType _ x.secondary = r at hsec ⊢
          cases r with
          | error err =>
            simp only [Prod.mk.injEq, reduceCtorEq, and_false, false_iff]
            rintro ⟨h1, _⟩
            have := (hsec _).mpr ⟨h1, rfl⟩
            cases this
          | ok y =>
            obtain ⟨h1, rfl⟩ := (hsec y).mp rfl
            simp only [Prod.mk.injEq, and_true]
            constructor
            · rintro rfl; exact ⟨h1, rfl⟩
            · rintro ⟨_, rfl⟩; rfl
        | some t =>
          simp only
          have key := fun tt' y => setTimeIndex_of (lib := lib) (tt := es.timeType) (t := t) (sorted := sorted) (tt' := tt') (y := y)
            (x := { x with vars := x.vars.map fun y => if y.id == x.index then y.createFrom "index" else y, timeIndex := some t
                           df := { df with cols := x.vars.map Var.id } }) hvars
          generalize Entity.setTimeIndex lib es.timeType _ t sorted = r at key ⊢
          obtain ⟨r1, r2⟩ := r
          cases r2 with
          | error err =>
            simp only [Prod.mk.injEq, reduceCtorEq, and_false, false_iff]
            rintro ⟨tt, h1, _⟩
            have := (key tt _).mpr ⟨h1, rfl⟩
            cases this
          | ok z =>
            obtain ⟨h1, rfl⟩ := (key r1 z).mp rfl
            simp only at h1
            simp only
            have hm : ∀ ti, (x.vars.map fun y => if y.id == x.index then y.createFrom "index" else y).map
                (fun y => if y.id == t then y.createFrom ti else y) = x.vars.map fun y =>
                  (fun y1 : Var => if y1.id == t then y1.createFrom ti else y1) (if y.id == x.index then y.createFrom "index" else y) := by
              intro ti; rw [List.map_map]; rfl
            have hsec := fun y => setSecondary_iff (lib := lib) (tt := r1) (sec := x.secondary) (y := y)
              (x := { x with
                timeIndex := some t
                vars := List.map (fun y => if y.id == t then y.createFrom (timeIndexType lib { df with cols := x.vars.map Var.id } t) else y)
                  (x.vars.map fun y => if y.id == x.index then y.createFrom "index" else y)
                df := orderedFrame { df with cols := x.vars.map Var.id } x.index (some t) sorted })
            have hu : ∀ tt, TimeFits lib es.timeType tt { df with cols := x.vars.map Var.id } (some t) → tt = r1 := by
              intro tt h
              obtain ⟨_, ty, k1, k2, _⟩ := h
              obtain ⟨_, ty', l1, l2, _⟩ := h1
              rw [k2, l2, ← k1, ← l1]
            generalize Entity.setSecondary lib r1 _ x.secondary = r at hsec ⊢
            cases r with
            | error err =>
              simp only [Prod.mk.injEq, reduceCtorEq, and_false, false_iff]
              rintro ⟨tt, h2, h3, _⟩
              have := hu tt h2
              subst this
              have := (hsec _).mpr ⟨h3, rfl⟩
              cases this
            | ok y =>
              obtain ⟨h2, rfl⟩ := (hsec y).mp rfl
              simp only [Prod.mk.injEq, and_true]
              constructor
              · rintro rfl
                refine ⟨r1, h1, h2, ?_⟩
                simp only [hm]
                rfl
              · rintro ⟨tt, h3, h4, rfl⟩
                have := hu tt h3
                subst this
                simp only [hm]
                rfl
      · rw [if_neg hnd]
        simp [hnd]
    · rw [if_neg hall]
      simp only [Prod.mk.injEq, reduceCtorEq, and_false, false_iff]
      rintro ⟨_, h, _⟩
      exact hall (by simpa using h)
  · rw [if_pos hlen]
    simp [hlen]

theorem retype_cases (lib : Lib) (f : DataFrame) (x : Entity) (v : Var) : AfterUpdate lib x f v (retype lib f x.index x.timeIndex v) := by
  have h1 : ∀ t, Remade v (v.createFrom t) t := fun t => ⟨rfl, rfl, rfl, rfl, rfl, rfl⟩
  have h2 : ∀ s t, Remade v ((v.createFrom s).createFrom t) t := fun s t => ⟨rfl, rfl, rfl, rfl, rfl, rfl⟩
  unfold retype
  cases ht : x.timeIndex with
  | none =>
    simp only
    by_cases hi : v.id = x.index
    · rw [if_pos (by simpa using hi)]; exact .index (by rw [ht]; simp) hi (h1 _)
    · rw [if_neg (by simpa using hi)]; exact .other (by rw [ht]; simp) hi rfl
  | some t =>
    by_cases hi : v.id = x.index
    · have e : (if v.id == x.index then v.createFrom "index" else v) = v.createFrom "index" := if_pos (by simpa using hi)
      simp only [e]
      by_cases hv : v.id = t
      · rw [if_pos (by simpa [Var.createFrom] using hv)]
        subst hv
        unfold timeIndexType
        by_cases hd : lib.isDatetime f v.id = true
        · rw [if_pos hd]; exact .date ht hd (h2 ..)
        · rw [if_neg hd]; exact .number ht (by simpa using hd) (h2 ..)
      · rw [if_neg (by simpa [Var.createFrom] using hv)]
        exact .index (by rw [ht]; simpa using Ne.symm hv) hi (h1 _)
    · have e : (if v.id == x.index then v.createFrom "index" else v) = v := if_neg (by simpa using hi)
      simp only [e]
      by_cases hv : v.id = t
      · rw [if_pos (by simpa using hv)]
        subst hv
        unfold timeIndexType
        by_cases hd : lib.isDatetime f v.id = true
        · rw [if_pos hd]; exact .date ht hd (h1 _)
        · rw [if_neg hd]; exact .number ht (by simpa using hd) (h1 _)
      · rw [if_neg (by simpa using hv)]
        exact .other (by rw [ht]; simpa using Ne.symm hv) hi rfl

theorem removeVar_filter {vars : List Var} (hn : (vars.map Var.id).Nodup) (v : String) : removeVar vars v = vars.filter fun y => y.id != v := by
  unfold removeVar
  induction vars with
  | nil => rfl
  | cons y l ih =>
    simp only [List.map_cons, List.nodup_cons] at hn
    by_cases h : y.id = v
    · rw [List.eraseP_cons_of_pos (by simpa using h), List.filter_cons_of_neg (by simpa using h)]
      symm
      rw [List.filter_eq_self]
      intro z hz
      simp only [bne_iff_ne, ne_eq]
      intro hzv
      exact hn.1 (by rw [h, ← hzv]; exact List.mem_map_of_mem hz)
    · rw [List.eraseP_cons_of_neg (by simpa using h), List.filter_cons_of_pos (by simpa using h), ih hn.2]

theorem removeVars_iff {vars : List Var} (hn : (vars.map Var.id).Nodup) (vs : List String) (out : List Var) :
    removeVars vars vs = (out, none) ↔ vs.Nodup ∧ (∀ v ∈ vs, v ∈ vars.map Var.id) ∧ out = vars.filter fun y => decide (y.id ∉ vs) := by
  induction vs generalizing vars with
  | nil =>
    have h1 : vars.filter (fun y => decide (y.id ∉ [])) = vars := by simp
    rw [h1]
    simp [removeVars, eq_comm]
  | cons v vs ih =>
    unfold removeVars
    by_cases h : v ∈ vars.map Var.id
    · rw [if_pos (by
        obtain ⟨y, hy, he⟩ := List.mem_map.mp h
        exact List.any_eq_true.mpr ⟨y, hy, by simpa using he⟩), removeVar_filter hn,
        ih (hn.sublist (List.Sublist.map _ List.filter_sublist))]
      simp only [List.nodup_cons, List.forall_mem_cons, h, true_and]
      have hf : ((vars.filter fun y => y.id != v).filter fun y => decide (y.id ∉ vs)) = vars.filter fun y => decide (y.id ∉ v :: vs) := by
        rw [List.filter_filter]
        apply List.filter_congr
        intro y _
        by_cases h1 : y.id = v <;> by_cases h2 : y.id ∈ vs <;> simp [h1, h2]
        all_goals (subst h1; exact h2)
      rw [hf]
      have hm : ∀ u, u ∈ (vars.filter fun y => y.id != v).map Var.id ↔ u ∈ vars.map Var.id ∧ u ≠ v := by
        intro u
        constructor
        · intro hu
          obtain ⟨y, hy, rfl⟩ := List.mem_map.mp hu
          exact ⟨List.mem_map_of_mem (List.mem_filter.mp hy).1, by simpa using (List.mem_filter.mp hy).2⟩
        · rintro ⟨hu, hne⟩
          obtain ⟨y, hy, rfl⟩ := List.mem_map.mp hu
          exact List.mem_map_of_mem (List.mem_filter.mpr ⟨hy, by simpa using hne⟩)
      constructor
      · rintro ⟨h1, h2, h3⟩
        exact ⟨⟨fun hv => ((hm v).mp (h2 v hv)).2 rfl, h1⟩, fun u hu => ((hm u).mp (h2 u hu)).1, h3⟩
      · rintro ⟨⟨h1, h2⟩, h3, h4⟩
        exact ⟨h2, fun u hu => (hm u).mpr ⟨h3 u hu, by rintro rfl; exact h1 hu⟩, h4⟩
    · rw [if_neg (by
        intro ha
        obtain ⟨y, hy, he⟩ := List.any_eq_true.mp ha
        exact h (List.mem_map.mpr ⟨y, hy, by simpa using he⟩))]
      simp only [Prod.mk.injEq, reduceCtorEq, and_false, false_iff, List.forall_mem_cons]
      rintro ⟨_, ⟨h', _⟩, _⟩
      exact h h'

/-- `delete_variables` on an entity when it succeeds. -/
theorem deleteVars_iff {x y : Entity} (hx : Coherent x) (vs : List String) :
    x.deleteVars vs = (y, none) ↔ vs.Nodup ∧ (∀ v ∈ vs, v ∈ x.df.cols) ∧
      y = { x with vars := x.vars.filter (fun v => decide (v.id ∉ vs)), df := { x.df with cols := x.df.cols.filter fun c => decide (c ∉ vs) } } := by
  have hn : (x.vars.map Var.id).Nodup := by rw [hx.vars]; exact hx.distinct
  unfold Entity.deleteVars
  by_cases he : vs = []
  · subst he
    simp only [List.isEmpty_nil, if_true, Prod.mk.injEq, and_true, List.nodup_nil, List.not_mem_nil, false_implies, implies_true,
      not_false_eq_true, decide_true, true_and]
    have h1 : ∀ (l : List Var), l.filter (fun _ => true) = l := fun l => by simp
    have h2 : ∀ (l : List String), l.filter (fun _ => true) = l := fun l => by simp
    rw [h1, h2]
    exact eq_comm
  · rw [if_neg (by simpa using he)]
    have hfil : (x.df.cols.filter fun c => !vs.contains c) = x.df.cols.filter fun c => decide (c ∉ vs) := by
      apply List.filter_congr
      intro c _
      by_cases h : c ∈ vs <;> simp [h]
    by_cases hall : (vs.all fun v => x.df.cols.contains v) = true
    · rw [if_pos hall]
      have hall' : ∀ v ∈ vs, v ∈ x.df.cols := by simpa using hall
      simp only [Prod.mk.injEq]
      have key := removeVars_iff hn vs (removeVars x.vars vs).1
      rw [hx.vars] at key
      constructor
      · rintro ⟨rfl, h2⟩
        obtain ⟨k1, k2, k3⟩ := key.mp (Prod.ext rfl h2)
        exact ⟨k1, k2, by rw [k3, hfil]⟩
      · rintro ⟨k1, k2, rfl⟩
        have := (removeVars_iff hn vs _).mpr ⟨k1, by rw [hx.vars]; exact k2, rfl⟩
        rw [this, hfil]
        exact ⟨rfl, rfl⟩
    · rw [if_neg hall]
      simp only [Prod.mk.injEq, reduceCtorEq, and_false, false_iff]
      rintro ⟨_, h, _⟩
      exact hall (by simpa using h)

end FT
