import Verif.Lemmas.Normalize
import Verif.Lemmas.Replaced
import Verif.Spec.Normalised
/-! # Lemmas about `normalize_entity`: acceptance and both entities -/
namespace FT
open Spec

theorem var?_iff {x : Entity} (hx : Coherent x) {v : Var} {c : String} : x.var? c = some v ↔ v ∈ x.vars ∧ v.id = c := by
  have hn : (x.vars.map Var.id).Nodup := by rw [hx.vars]; exact hx.distinct
  unfold Entity.var?
  generalize x.vars = l at hn
  constructor
  · intro h
    exact ⟨List.mem_of_find?_eq_some h, by simpa using List.find?_some h⟩
  · rintro ⟨h1, rfl⟩
    induction l with
    | nil => cases h1
    | cons w l ih =>
      rw [List.map_cons, List.nodup_cons] at hn
      rw [List.find?_cons]
      rcases List.mem_cons.mp h1 with rfl | h1
      · simp
      · have : ¬ (w.id == v.id) = true := by
          simp only [beq_iff_eq]
          intro h
          exact hn.1 (List.mem_map.mpr ⟨v, h1, h.symm⟩)
        simp only [this]
        exact ih hn.2 h1

theorem var?_ofCol {x : Entity} (hx : Coherent x) {c : String} (hc : c ∈ x.df.cols) : ∃ v, x.var? c = some v ∧ v ∈ x.vars ∧ v.id = c := by
  rw [← hx.vars] at hc
  obtain ⟨v, hv, rfl⟩ := List.mem_map.mp hc
  exact ⟨v, (var?_iff hx).mpr ⟨hv, rfl⟩, hv, rfl⟩

theorem normError_iff {x : Entity} (hx : Coherent x) (a : NormArgs) : normError x a = none ↔
    (∀ t, x.timeIndex = some t → ∃ v ∈ x.vars, v.id = t ∧ (v.type = "numeric_time_index" ∨ v.type = "datetime_time_index")) ∧
    a.additional.Nodup ∧ a.copy.Nodup ∧ a.index ∉ a.additional ++ a.copy ∧ (∀ t, x.timeIndex = some t → t ∉ a.additional) ∧
    (∀ c, a.makeTime = .col c → c ∈ x.df.cols ∧ c ∈ a.additional ++ a.copy) ∧ a.index ≠ x.index := by
  have h1 : (x.timeIndex.any (fun t => match x.var? t with
      | some v => !(v.type == "numeric_time_index" || v.type == "datetime_time_index")
      | none => true) = true) ↔
      ¬ ∀ t, x.timeIndex = some t → ∃ v ∈ x.vars, v.id = t ∧ (v.type = "numeric_time_index" ∨ v.type = "datetime_time_index") := by
    cases ht : x.timeIndex with
    | none => simp
    | some t =>
      obtain ⟨w, hw, hwm, hwi⟩ := var?_ofCol hx (hx.time t ht)
      simp only [Option.any_some, hw, Option.some.injEq, forall_eq']
      constructor
      · rintro h ⟨v, hv, hvi, hty⟩
        have : v = w := by
          have := (var?_iff hx).mpr ⟨hv, hvi⟩
          rw [hw] at this
          exact (Option.some.inj this).symm
        subst this
        rcases hty with hty | hty <;> simp [hty] at h
      · intro h
        simp only [Bool.not_eq_true', Bool.or_eq_false_iff, beq_eq_false_iff_ne, ne_eq]
        exact ⟨fun hh => h ⟨w, hwm, hwi, .inl hh⟩, fun hh => h ⟨w, hwm, hwi, .inr hh⟩⟩
  have h5 : (a.additional.any (fun v => some v == x.timeIndex) = true) ↔ ¬ ∀ t, x.timeIndex = some t → t ∉ a.additional := by
    rw [List.any_eq_true]
    constructor
    · rintro ⟨v, hv, he⟩ h
      exact h v (by simpa using (beq_iff_eq.mp he).symm) hv
    · intro h
      obtain ⟨t, ht⟩ := Classical.not_forall.mp h
      obtain ⟨ht, hm⟩ := Classical.not_imp.mp ht
      exact ⟨t, Classical.not_not.mp hm, by simp [ht]⟩
  unfold normError
  generalize hb : Option.any _ x.timeIndex = b
  replace h1 : b = true ↔ ¬ ∀ t, x.timeIndex = some t → ∃ v ∈ x.vars, v.id = t ∧ (v.type = "numeric_time_index" ∨ v.type = "datetime_time_index") := by
    rw [← hb]; exact h1
  by_cases k1 : ∀ t, x.timeIndex = some t → ∃ v ∈ x.vars, v.id = t ∧ (v.type = "numeric_time_index" ∨ v.type = "datetime_time_index")
  case neg => rw [if_pos (h1.mpr k1)]; exact ⟨fun h => (by cases h), fun h => absurd h.1 k1⟩
  rw [if_neg (fun h => h1.mp h k1)]
  by_cases k2 : a.additional.Nodup
  case neg => rw [if_pos (fun h => k2 ((dedup_eq_self _).mp h))]; exact ⟨fun h => (by cases h), fun h => absurd h.2.1 k2⟩
  rw [if_neg (fun h => h ((dedup_eq_self _).mpr k2))]
  by_cases k3 : a.copy.Nodup
  case neg => rw [if_pos (fun h => k3 ((dedup_eq_self _).mp h))]; exact ⟨fun h => (by cases h), fun h => absurd h.2.2.1 k3⟩
  rw [if_neg (fun h => h ((dedup_eq_self _).mpr k3))]
  by_cases k4 : a.index ∈ a.additional ++ a.copy
  · rw [if_pos (by simpa using k4)]; exact ⟨fun h => (by cases h), fun h => absurd k4 h.2.2.2.1⟩
  rw [if_neg (by simpa using k4)]
  by_cases k5 : ∀ t, x.timeIndex = some t → t ∉ a.additional
  case neg => rw [if_pos (h5.mpr k5)]; exact ⟨fun h => (by cases h), fun h => absurd h.2.2.2.2.1 k5⟩
  rw [if_neg (fun h => h5.mp h k5)]
  by_cases k7 : a.index = x.index
  · simp only [k7, if_true]
    refine ⟨fun h => ?_, fun h => absurd rfl h.2.2.2.2.2.2⟩
    revert h
    cases a.makeTime <;> simp
  simp only [if_neg k7]
  cases hm : a.makeTime with
  | col c =>
    simp only [MakeTime.col.injEq, forall_eq']
    by_cases k6 : c ∈ x.df.cols ∧ c ∈ a.additional ++ a.copy
    · rw [if_neg (by
        simp only [Bool.or_eq_true, Bool.not_eq_true', not_or, Bool.not_eq_false, List.contains_iff_mem]
        exact k6)]
      exact ⟨fun _ => ⟨k1, k2, k3, k4, k5, k6, k7⟩, fun _ => rfl⟩
    · rw [if_pos]
      · exact ⟨fun h => (by cases h), fun h => absurd h.2.2.2.2.2.1 k6⟩
      · simp only [Bool.or_eq_true, Bool.not_eq_true']
        rcases Classical.not_and_iff_not_or_not.mp k6 with k | k
        · exact .inl (by simpa using k)
        · exact .inr (by simpa using k)
  | dflt => exact ⟨fun _ => ⟨k1, k2, k3, k4, k5, fun c h => (by cases h), k7⟩, fun _ => rfl⟩
  | yes => exact ⟨fun _ => ⟨k1, k2, k3, k4, k5, fun c h => (by cases h), k7⟩, fun _ => rfl⟩
  | no => exact ⟨fun _ => ⟨k1, k2, k3, k4, k5, fun c h => (by cases h), k7⟩, fun _ => rfl⟩

/-- What `normTime` decides, in terms of the specification. -/
theorem normTime_iff {x : Entity} {a : NormArgs} (hm : ∀ t, x.timeIndex = some t → t ∉ a.additional) {t : NormTime} :
    normTime x a = .ok t ↔ (a.makeTime = .yes → x.timeIndex ≠ none) ∧
      (t.time = (newTime x a).map fun p => p.1) ∧ (t.source = (newTime x a).map fun p => p.2) ∧
      t.sorted = (match a.makeTime with
        | .col c => some c == x.timeIndex
        | _ => (newTime x a).isSome) ∧
      t.copy = a.copy ++ (match a.makeTime with
        | .col _ => []
        | _ => ((newTime x a).map fun p => p.2).toList) ∧
      t.types = (match a.makeTime with
        | .col _ => []
        | _ => match newTime x a with
          | some p => match x.var? p.2 with
            | some v => [(p.1, .cls v.type)]
            | none => []
          | none => []) := by
  obtain ⟨t1, t2, t3, t4, t5⟩ := t
  unfold normTime newTime useBaseTime
  cases hk : a.makeTime with
  | col c =>
    simp only [Except.ok.injEq, NormTime.mk.injEq, reduceCtorEq, false_implies, true_and, Option.map_some, List.append_nil]
    constructor
    · rintro ⟨rfl, rfl, rfl, rfl, rfl⟩; exact ⟨rfl, rfl, rfl, rfl, rfl⟩
    · rintro ⟨rfl, rfl, rfl, rfl, rfl⟩; exact ⟨rfl, rfl, rfl, rfl, rfl⟩
  | no =>
    simp only [show (MakeTime.no == MakeTime.yes) = false from rfl, show (MakeTime.no == MakeTime.dflt) = false from rfl, Bool.false_and,
      Bool.or_self, Bool.false_eq_true, if_false, Except.ok.injEq, NormTime.mk.injEq, reduceCtorEq, false_implies, true_and, Option.map_none,
      Option.isSome_none, Option.toList_none, List.append_nil]
    constructor
    · rintro ⟨rfl, rfl, rfl, rfl, rfl⟩; exact ⟨rfl, rfl, rfl, rfl, rfl⟩
    · rintro ⟨rfl, rfl, rfl, rfl, rfl⟩; exact ⟨rfl, rfl, rfl, rfl, rfl⟩
  | yes =>
    simp only [show (MakeTime.yes == MakeTime.yes) = true from rfl, Bool.true_or, if_true, forall_const]
    cases ht : x.timeIndex with
    | none => simp
    | some s =>
      have : a.additional.contains s = false := by simpa using hm s ht
      simp only [this, Bool.false_eq_true, if_false, Except.ok.injEq, NormTime.mk.injEq, ne_eq, reduceCtorEq, not_false_eq_true, true_and,
        Option.map_some, Option.isSome_some, Option.toList_some]
      constructor
      · rintro ⟨rfl, rfl, rfl, rfl, rfl⟩; exact ⟨rfl, rfl, rfl, rfl, rfl⟩
      · rintro ⟨rfl, rfl, rfl, rfl, rfl⟩; exact ⟨rfl, rfl, rfl, rfl, rfl⟩
  | dflt =>
    simp only [show (MakeTime.dflt == MakeTime.yes) = false from rfl, show (MakeTime.dflt == MakeTime.dflt) = true from rfl, Bool.false_or,
      Bool.true_and, reduceCtorEq, false_implies, true_and]
    cases ht : x.timeIndex with
    | none =>
      simp only [Option.isSome_none, Bool.false_eq_true, if_false, Except.ok.injEq, NormTime.mk.injEq, Option.map_none,
        Option.toList_none, List.append_nil]
      constructor
      · rintro ⟨rfl, rfl, rfl, rfl, rfl⟩; exact ⟨rfl, rfl, rfl, rfl, rfl⟩
      · rintro ⟨rfl, rfl, rfl, rfl, rfl⟩; exact ⟨rfl, rfl, rfl, rfl, rfl⟩
    | some s =>
      have : a.additional.contains s = false := by simpa using hm s ht
      simp only [Option.isSome_some, if_true, this, Bool.false_eq_true, if_false, Except.ok.injEq, NormTime.mk.injEq, Option.map_some, 
        Option.toList_some]
      constructor
      · rintro ⟨rfl, rfl, rfl, rfl, rfl⟩; exact ⟨rfl, rfl, rfl, rfl, rfl⟩
      · rintro ⟨rfl, rfl, rfl, rfl, rfl⟩; exact ⟨rfl, rfl, rfl, rfl, rfl⟩

/-- The column a column of the new entity is taken from. -/
theorem normFrame0_cell (x : Entity) (a : NormArgs) (t : NormTime) (h1 : t.time = (newTime x a).map fun p => p.1)
    (h2 : t.source = (newTime x a).map fun p => p.2) :
    (normFrame0 x a t).rows = (firstRows a.index x.df.rows).map fun r c => r (newCell.source x a c) := by
  unfold normFrame0 newCell.source
  rw [h1, h2]
  cases newTime x a with
  | none => simp
  | some p =>
    simp only [Option.map_some]
    refine List.map_congr_left fun r _ => ?_
    funext c
    unfold renameRow
    split <;> rfl

theorem renameCol_ne {s d c : String} (h : c ≠ s) : renameCol s d c = c := if_neg h

theorem map_renameCol_eq {s d : String} {l : List String} (h : s ∉ l) : l.map (renameCol s d) = l := by
  conv => rhs; rw [← List.map_id l]
  exact List.map_congr_left fun c hc => renameCol_ne fun h' => h (h' ▸ hc)

theorem renameCol_same {s : String} (l : List String) : l.map (renameCol s s) = l := by
  conv => rhs; rw [← List.map_id l]
  refine List.map_congr_left fun c _ => ?_
  unfold renameCol
  split <;> simp [*]

/-- The columns before the join. -/
theorem normFrame0_cols {x : Entity} {a : NormArgs} {t : NormTime} (h1 : t.time = (newTime x a).map fun p => p.1)
    (h2 : t.source = (newTime x a).map fun p => p.2)
    (h3 : t.copy = a.copy ++ (match a.makeTime with
        | .col _ => []
        | _ => ((newTime x a).map fun p => p.2).toList))
    (hm : ∀ s, x.timeIndex = some s → s ∉ a.additional)
    (hf : (∀ c, a.makeTime ≠ .col c) → ∀ p, newTime x a = some p → p.2 ∉ a.copy ∧ p.2 ≠ a.index) :
    (normFrame0 x a t).cols = a.index :: a.additional ++ a.copy ++ timeColumn x a := by
  unfold normFrame0 timeColumn
  rw [h1, h2, h3]
  cases hk : a.makeTime with
  | col c =>
    have : newTime x a = some (c, c) := by unfold newTime; rw [hk]
    rw [this]
    simp only [Option.map_some, renameCol_same, List.append_nil]
  | no =>
    have : newTime x a = none := by unfold newTime; rw [hk]
    rw [this]
    simp
  | yes =>
    cases hn : newTime x a with
    | none => simp
    | some p =>
      obtain ⟨f1, f2⟩ := hf (by rw [hk]; simp) p hn
      have f3 : p.2 ∉ a.additional := by
        unfold newTime at hn
        rw [hk] at hn
        obtain ⟨s, hs, rfl⟩ := Option.map_eq_some_iff.mp hn
        exact hm s hs
      simp only [Option.map_some, Option.toList_some, List.map_cons, List.map_append, List.map_nil, List.cons_append]
      rw [renameCol_ne (Ne.symm f2), map_renameCol_eq f3, map_renameCol_eq f1]
      simp [renameCol]
  | dflt =>
    cases hn : newTime x a with
    | none => simp
    | some p =>
      obtain ⟨f1, f2⟩ := hf (by rw [hk]; simp) p hn
      have f3 : p.2 ∉ a.additional := by
        unfold newTime at hn
        rw [hk] at hn
        obtain ⟨s, hs, rfl⟩ := Option.map_eq_some_iff.mp hn
        exact hm s hs
      simp only [Option.map_some, Option.toList_some, List.map_cons, List.map_append, List.map_nil, List.cons_append]
      rw [renameCol_ne (Ne.symm f2), map_renameCol_eq f3, map_renameCol_eq f1]
      simp [renameCol]

/-- Without doublets the base time index is neither copied nor the key. -/
theorem fresh_of_nodup {x : Entity} {a : NormArgs} {t : NormTime} (h1 : t.time = (newTime x a).map fun p => p.1)
    (h2 : t.source = (newTime x a).map fun p => p.2)
    (h3 : t.copy = a.copy ++ (match a.makeTime with
        | .col _ => []
        | _ => ((newTime x a).map fun p => p.2).toList))
    (hn : (normFrame0 x a t).cols.Nodup) :
    (∀ c, a.makeTime ≠ .col c) → ∀ p, newTime x a = some p → p.2 ∉ a.copy ∧ p.2 ≠ a.index := by
  intro hc p hp
  have h3' : t.copy = a.copy ++ [p.2] := by
    rw [h3, hp]
    cases hk : a.makeTime with
    | col c => exact absurd hk (hc c)
    | _ => rfl
  unfold normFrame0 at hn
  rw [h1, h2, h3', hp] at hn
  simp only [Option.map_some, List.map_cons, List.map_append, List.map_nil, List.cons_append] at hn
  have hd : renameCol p.2 p.1 p.2 = p.1 := by simp [renameCol]
  rw [hd, List.nodup_cons] at hn
  constructor
  · intro hm
    have := (List.nodup_append.mp (List.nodup_append.mp hn.2).2.1).2.2 (renameCol p.2 p.1 p.2) (List.mem_map_of_mem hm) p.1 (by simp)
    exact this hd
  · intro he
    apply hn.1
    rw [← he, hd]
    simp

/-- The frame of the new entity. -/
theorem normFrame_iff {x : Entity} {a : NormArgs} {t : NormTime} (h1 : t.time = (newTime x a).map fun p => p.1)
    (h2 : t.source = (newTime x a).map fun p => p.2)
    (h3 : t.copy = a.copy ++ (match a.makeTime with
        | .col _ => []
        | _ => ((newTime x a).map fun p => p.2).toList))
    (hx : Coherent x) (hm : ∀ s, x.timeIndex = some s → s ∉ a.additional) :
    (∃ f, normFrame x a t = .ok f ∧ f.cols.Nodup) ↔ (∀ c ∈ a.index :: a.additional ++ a.copy, c ∈ x.df.cols) ∧
      ((∀ c, a.makeTime ≠ .col c) → ∀ p, newTime x a = some p → p.2 ∉ a.copy ∧ p.2 ≠ a.index) ∧
      (a.makeSecondary = [] ∨ ∃ s cols, a.makeSecondary = [(s, cols)] ∧ s ∉ cols ∧ ∀ c ∈ s :: cols, c ∈ x.df.cols) ∧
      (newCols x a).Nodup := by
  have hsub : ∀ c ∈ t.copy, c ∈ a.copy ∨ c ∈ x.df.cols := by
    intro c hc
    rw [h3, List.mem_append] at hc
    rcases hc with hc | hc
    · exact .inl hc
    · right
      revert hc
      unfold newTime
      cases a.makeTime with
      | col c => simp
      | no => simp
      | yes => cases ht : x.timeIndex with
        | none => simp
        | some s => simpa using fun h => h ▸ hx.time s ht
      | dflt => cases ht : x.timeIndex with
        | none => simp
        | some s => simpa using fun h => h ▸ hx.time s ht
  have hall : ((a.index :: a.additional ++ t.copy).all fun c => x.df.cols.contains c) = true ↔ ∀ c ∈ a.index :: a.additional ++ a.copy, c ∈ x.df.cols := by
    rw [List.all_eq_true]
    simp only [List.contains_iff_mem]
    constructor
    · intro h c hc
      apply h
      rw [h3]
      simp only [List.cons_append, List.mem_cons, List.mem_append] at hc ⊢
      rcases hc with hc | hc | hc
      · exact .inl hc
      · exact .inr (.inl hc)
      · exact .inr (.inr (.inl hc))
    · intro h c hc
      simp only [List.cons_append, List.mem_cons, List.mem_append] at hc h
      rcases hc with hc | hc | hc
      · exact h c (.inl hc)
      · exact h c (.inr (.inl hc))
      · rcases hsub c hc with h' | h'
        · exact h c (.inr (.inr h'))
        · exact h'
  constructor
  · rintro ⟨f, hf, hnd⟩
    have hn0 : (normFrame0 x a t).cols.Nodup := by
      rcases normFrame_eq hf with ⟨_, rfl⟩ | ⟨s, cols, _, hc, _⟩
      · exact hnd
      · rw [hc] at hnd; exact (List.nodup_append.mp hnd).1
    have hfresh := fresh_of_nodup h1 h2 h3 hn0
    have hcols := normFrame0_cols h1 h2 h3 hm hfresh
    unfold normFrame at hf
    split at hf
    case isFalse => cases hf
    rename_i ha
    refine ⟨hall.mp ha, hfresh, ?_⟩
    simp only at hf
    split at hf
    · rename_i hs
      cases hf
      refine ⟨.inl hs, ?_⟩
      unfold newCols newSecondary
      rw [hs, ← hcols]
      simpa using hnd
    · rename_i s cols hs
      split at hf
      case isFalse => cases hf
      rename_i hc
      split at hf
      · cases hf
      cases hf
      simp only at hnd
      have hsc : s ∉ cols := by
        intro hm
        have := (List.nodup_append.mp hnd).2.1
        rw [List.nodup_cons] at this
        exact this.1 (List.mem_map.mpr ⟨s, hm, by simp [renameCol]⟩)
      refine ⟨.inr ⟨s, cols, hs, hsc, by simpa using hc⟩, ?_⟩
      unfold newCols newSecondary
      rw [hs, ← hcols]
      rw [map_renameCol_eq hsc] at hnd
      exact hnd
    · cases hf
  · rintro ⟨k1, k2, k3, k4⟩
    have hcols := normFrame0_cols h1 h2 h3 hm k2
    unfold normFrame
    rw [if_pos (hall.mpr k1)]
    simp only
    rcases k3 with hs | ⟨s, cols, hs, hsc, hc⟩
    · rw [hs]
      refine ⟨_, rfl, ?_⟩
      unfold newCols newSecondary at k4
      rw [hs, ← hcols] at k4
      simpa using k4
    · rw [hs]
      simp only
      unfold newCols newSecondary at k4
      rw [hs, ← hcols] at k4
      simp only at k4
      rw [if_pos (by simpa using hc), map_renameCol_eq hsc, if_neg]
      · exact ⟨_, rfl, k4⟩
      · intro h
        obtain ⟨c, hc1, hc2⟩ := List.any_eq_true.mp h
        exact (List.nodup_append.mp k4).2.2 c (by simpa using hc2) c hc1 rfl

/-- Columns and cells of the frame. -/
theorem normFrame_data {x : Entity} {a : NormArgs} {t : NormTime} {f : DataFrame} (h1 : t.time = (newTime x a).map fun p => p.1)
    (h2 : t.source = (newTime x a).map fun p => p.2)
    (h3 : t.copy = a.copy ++ (match a.makeTime with
        | .col _ => []
        | _ => ((newTime x a).map fun p => p.2).toList))
    (hx : Coherent x) (hm : ∀ s, x.timeIndex = some s → s ∉ a.additional) (hkey : (newTime x a).map (fun p => p.1) ≠ some a.index) (hf : normFrame x a t = .ok f) (hn : f.cols.Nodup) :
    f.cols = newCols x a ∧ f.rows.map (fun r => r a.index) = (firstRows a.index x.df.rows).map (fun r => r a.index) ∧
      ∀ r ∈ f.rows, ∀ c, newCell x a (r a.index) c = some (r c) := by
  obtain ⟨k1, k2, k3, k4⟩ := (normFrame_iff h1 h2 h3 hx hm).mp ⟨f, hf, hn⟩
  have hcols := normFrame0_cols h1 h2 h3 hm k2
  have hrows := normFrame0_cell x a t h1 h2
  have hsrc : newCell.source x a a.index = a.index := by
    unfold newCell.source
    cases hp : newTime x a with
    | none => rfl
    | some p =>
      simp only
      rw [if_neg]
      rintro h
      exact hkey (by rw [hp, h]; rfl)
  rcases normFrame_eq hf with ⟨hs, rfl⟩ | ⟨s, cols, hs, hc, hr, hd⟩
  · have hsec : newSecondary a = none := by unfold newSecondary; rw [hs]
    refine ⟨?_, ?_, ?_⟩
    · rw [hcols]; unfold newCols; rw [hsec]; simp
    · rw [hrows, List.map_map]
      refine List.map_congr_left fun r _ => ?_
      simp only [Function.comp, hsrc]
    · intro r hr c
      rw [hrows] at hr
      obtain ⟨r0, hr0, rfl⟩ := List.mem_map.mp hr
      unfold newCell
      rw [hsec]
      simp only [hsrc]
      unfold firstCell
      rw [firstRows_first _ _ _ hr0]
      rfl
  · have hsec : newSecondary a = some (a.newSecondary.getD s, s, cols) := by unfold newSecondary; rw [hs]
    have hsc : s ∉ cols := by
      rcases k3 with h | ⟨s', cols', h, h', _⟩
      · rw [hs] at h; cases h
      · rw [hs] at h; cases h; exact h'
    rw [map_renameCol_eq hsc] at hc hd
    have hidx : a.index ∈ (normFrame0 x a t).cols := by rw [hcols]; simp
    have hi1 : a.index ≠ a.newSecondary.getD s := fun h => hd _ (List.mem_cons_self ..) (h ▸ hidx)
    have hi2 : a.index ∉ cols := fun h => hd _ (List.mem_cons_of_mem _ h) hidx
    have hji : ∀ r, joinSecondary a.index x.df.rows s (a.newSecondary.getD s) cols r a.index = r a.index := by
      intro r
      unfold joinSecondary
      cases x.df.rows.reverse.find? fun q => decide (q a.index = r a.index) with
      | some q => simp [hi1, hi2]
      | none => rfl
    refine ⟨?_, ?_, ?_⟩
    · rw [hc, hcols]; unfold newCols; rw [hsec]
    · rw [hr, hrows, List.map_map, List.map_map]
      refine List.map_congr_left fun r _ => ?_
      simp only [Function.comp, hji, hsrc]
    · intro r hr' c
      rw [hr, hrows] at hr'
      obtain ⟨r1, hr1, rfl⟩ := List.mem_map.mp hr'
      obtain ⟨r0, hr0, rfl⟩ := List.mem_map.mp hr1
      rw [hji]
      simp only [hsrc]
      unfold newCell
      rw [hsec]
      simp only
      have hq : ∃ q, (x.df.rows.reverse.find? fun q => decide (q a.index = r0 a.index)) = some q := by
        rw [← Option.isSome_iff_exists, List.find?_isSome]
        exact ⟨r0, List.mem_reverse.mpr (firstRows_sub _ _ _ hr0), by simp⟩
      obtain ⟨q, hq⟩ := hq
      unfold joinSecondary lastCell firstCell
      simp only [hsrc]
      rw [hq, firstRows_first _ _ _ hr0]
      simp only [Option.map_some, List.contains_iff_mem]
      by_cases e1 : c = a.newSecondary.getD s
      · simp [e1]
      · by_cases e2 : c ∈ cols
        · simp [e1, e2]
        · simp [e1, e2]

theorem eraseDups_filter (l : List Val) (p : Val → Bool) : (l.filter p).eraseDups = l.eraseDups.filter p := by
  suffices h : ∀ n (l : List Val), l.length ≤ n → (l.filter p).eraseDups = l.eraseDups.filter p from h _ l (Nat.le_refl _)
  intro n
  induction n with
  | zero => intro l hl; cases l with | nil => simp | cons _ _ => simp at hl
  | succ n ih =>
    intro l hl
    cases l with
    | nil => simp
    | cons v l =>
      have hlen : (l.filter fun b => !b == v).length ≤ n := Nat.le_trans (List.length_filter_le ..) (by simpa using hl)
      rw [List.eraseDups_cons]
      by_cases hp : p v = true
      · rw [List.filter_cons_of_pos hp, List.filter_cons_of_pos hp, List.eraseDups_cons, ← ih _ hlen, List.filter_filter, List.filter_filter]
        simp only [Bool.and_comm]
      · rw [List.filter_cons_of_neg hp, List.filter_cons_of_neg hp, ← ih _ hlen, List.filter_filter]
        congr 1
        refine List.filter_congr fun b _ => ?_
        by_cases hb : b = v
        · subst hb; simp [hp]
        · simp [hb]

theorem firstRows_keys (k : String) (rows : List Row) : (firstRows k rows).map (fun r => r k) = (rows.map fun r => r k).eraseDups := by
  induction rows with
  | nil => rfl
  | cons r rs ih =>
    unfold firstRows
    rw [List.map_cons, List.map_cons, List.eraseDups_cons, eraseDups_filter, ← ih, List.filter_map]
    congr 2
    refine List.filter_congr fun s _ => ?_
    simp only [Function.comp, ne_eq]
    by_cases h : s k = r k <;> simp [h]

theorem transferTypes_iff {x : Entity} (hx : Coherent x) {vs : List String} {l : List (String × TypeArg)} :
    transferTypes x vs = .ok l ↔ l.map Prod.fst = vs ∧ ∀ p ∈ l, ∃ v ∈ x.vars, v.id = p.1 ∧ p.2 = .cls (carriedType v.type) := by
  induction vs generalizing l with
  | nil => 
    unfold transferTypes
    constructor
    · intro h; cases h; simp
    · rintro ⟨h, _⟩; rw [List.map_eq_nil_iff] at h; rw [h]
  | cons c vs ih =>
    unfold transferTypes
    constructor
    · intro h
      split at h
      · rename_i y l' hy hl'
        cases h
        obtain ⟨i1, i2⟩ := ih.mp hl'
        refine ⟨by rw [List.map_cons, i1], fun p hp => ?_⟩
        rcases List.mem_cons.mp hp with rfl | hp
        · exact ⟨y, ((var?_iff hx).mp hy).1, ((var?_iff hx).mp hy).2, rfl⟩
        · exact i2 p hp
      · cases h
      · cases h
    · rintro ⟨h1, h2⟩
      cases l with
      | nil => cases h1
      | cons p l =>
        rw [List.map_cons, List.cons.injEq] at h1
        obtain ⟨v, hv, hv1, hv2⟩ := h2 p (List.mem_cons_self ..)
        have hvar := (var?_iff hx (v := v) (c := c)).mpr ⟨hv, hv1.trans h1.1⟩
        rw [hvar, ih.mpr ⟨h1.2, fun q hq => h2 q (List.mem_cons_of_mem _ hq)⟩]
        obtain ⟨p1, p2⟩ := p
        simp only at h1 hv2
        rw [h1.1, hv2]
        rfl

theorem transferTypes_exists {x : Entity} (hx : Coherent x) {vs : List String} : (∃ l, transferTypes x vs = .ok l) ↔ ∀ c ∈ vs, c ∈ x.df.cols := by
  constructor
  · rintro ⟨l, h⟩ c hc
    obtain ⟨h1, h2⟩ := (transferTypes_iff hx).mp h
    rw [← h1] at hc
    obtain ⟨p, hp, rfl⟩ := List.mem_map.mp hc
    obtain ⟨v, hv, hv1, _⟩ := h2 p hp
    rw [← hv1, ← hx.vars]
    exact List.mem_map_of_mem hv
  · intro h
    induction vs with
    | nil => exact ⟨[], rfl⟩
    | cons c vs ih =>
      obtain ⟨l, hl⟩ := ih fun d hd => h d (List.mem_cons_of_mem _ hd)
      obtain ⟨v, hv, _⟩ := var?_ofCol hx (h c (List.mem_cons_self ..))
      unfold transferTypes
      rw [hl, hv]
      exact ⟨_, rfl⟩

/-- The prepared call. -/
structure Prepared (x : Entity) (a : NormArgs) (args : EntityArgs) : Prop where
  id : args.id = a.new
  index : args.index = some a.index
  noMake : args.makeIndex = false
  timeIndex : args.timeIndex = (newTime x a).map fun p => p.1
  sorted : args.sorted = (match a.makeTime with
        | .col c => some c == x.timeIndex
        | _ => (newTime x a).isSome)
  secondary : args.secondary = match newSecondary a with
    | some (d, _, cols) => [(d, cols)]
    | none => []
  cols : args.df.cols = newCols x a
  keys : args.df.rows.map (fun r => r a.index) = (x.df.rows.map fun r => r a.index).eraseDups
  cells : ∀ r ∈ args.df.rows, ∀ c, newCell x a (r a.index) c = some (r c)
  dtype : args.df.dtype a.index = x.df.dtype a.index
  types : args.types.map Prod.fst = a.index :: a.additional ++ a.copy ++ timeColumn x a
  carried : ∀ p ∈ args.types, p.1 ∈ a.additional ++ a.copy → ∃ v ∈ x.vars, v.id = p.1 ∧ p.2 = .cls (carriedType v.type)
  lone : newTime x a = none → ∀ p ∈ args.types, p.2 ≠ .cls "datetime_time_index"

theorem carriedType_ne (t : String) : carriedType t ≠ "datetime_time_index" := by
  unfold carriedType
  by_cases h : t = "datetime_time_index"
  · rw [if_pos h]; decide
  · rw [if_neg h]
    split
    · decide
    · exact h

theorem time_ne_index {x : Entity} {a : NormArgs} (hnd : (newCols x a).Nodup) (hnamed : ∀ c, a.makeTime = .col c → c ∈ a.additional ++ a.copy) :
    (newTime x a).map (fun p => p.1) ≠ some a.index := by
  intro h
  obtain ⟨p, hp, hpi⟩ := Option.map_eq_some_iff.mp h
  unfold newCols at hnd
  have hnd := (List.nodup_append.mp hnd).1
  cases hk : a.makeTime with
  | col c =>
    have := hnamed c hk
    unfold newTime at hp
    rw [hk] at hp
    cases hp
    simp only at hpi
    rw [hpi] at this
    have hnd := (List.nodup_append.mp hnd).1
    rw [List.cons_append, List.nodup_cons] at hnd
    exact hnd.1 this
  | no =>
    unfold newTime at hp
    rw [hk] at hp
    cases hp
  | yes =>
    have : timeColumn x a = [a.index] := by unfold timeColumn; rw [hk, hp]; simp only; rw [hpi]
    rw [this] at hnd
    exact (List.nodup_append.mp hnd).2.2 a.index (by simp) a.index (by simp) rfl
  | dflt =>
    have : timeColumn x a = [a.index] := by unfold timeColumn; rw [hk, hp]; simp only; rw [hpi]
    rw [this] at hnd
    exact (List.nodup_append.mp hnd).2.2 a.index (by simp) a.index (by simp) rfl

theorem time_types {x : Entity} (hx : Coherent x) (a : NormArgs) : ∃ l : List (String × TypeArg),
    (match a.makeTime with
        | .col _ => []
        | _ => match newTime x a with
          | some p => match x.var? p.2 with
            | some v => [(p.1, TypeArg.cls v.type)]
            | none => []
          | none => []) = l ∧ l.map Prod.fst = timeColumn x a ∧ (newTime x a = none → l = []) := by
  unfold timeColumn
  have key : ∀ p, (∀ c, a.makeTime ≠ .col c) → newTime x a = some p → ∃ v, x.var? p.2 = some v := by
    intro p hc hp
    have : ∃ s, x.timeIndex = some s ∧ p.2 = s := by
      unfold newTime at hp
      cases hk : a.makeTime with
      | col c => exact absurd hk (hc c)
      | no => rw [hk] at hp; cases hp
      | yes => rw [hk] at hp; obtain ⟨s, hs, rfl⟩ := Option.map_eq_some_iff.mp hp; exact ⟨s, hs, rfl⟩
      | dflt => rw [hk] at hp; obtain ⟨s, hs, rfl⟩ := Option.map_eq_some_iff.mp hp; exact ⟨s, hs, rfl⟩
    obtain ⟨s, hs, hps⟩ := this
    obtain ⟨v, hv, _⟩ := var?_ofCol hx (hx.time s hs)
    exact ⟨v, by rw [hps]; exact hv⟩
  cases hk : a.makeTime with
  | col c => exact ⟨_, rfl, rfl, fun _ => rfl⟩
  | _ =>
    cases hn : newTime x a with
    | none => exact ⟨_, rfl, rfl, fun _ => rfl⟩
    | some p =>
      obtain ⟨v, hv⟩ := key p (by rw [hk]; simp) hn
      simp only [hv]
      exact ⟨_, rfl, rfl, fun h => by cases h⟩

/-- When the call can be prepared, and what it is then. -/
theorem normEntityArgs_iff {x : Entity} (hx : Coherent x) {a : NormArgs} (hm : ∀ s, x.timeIndex = some s → s ∉ a.additional)
    (hnamed : ∀ c, a.makeTime = .col c → c ∈ a.additional ++ a.copy) :
    (∃ args, normEntityArgs x a = .ok args ∧ args.df.cols.Nodup) ↔ (∀ c ∈ a.index :: a.additional ++ a.copy, c ∈ x.df.cols) ∧
      (a.makeTime = .yes → x.timeIndex ≠ none) ∧
      ((∀ c, a.makeTime ≠ .col c) → ∀ p, newTime x a = some p → p.2 ∉ a.copy ∧ p.2 ≠ a.index) ∧
      (a.makeSecondary = [] ∨ ∃ s cols, a.makeSecondary = [(s, cols)] ∧ s ∉ cols ∧ ∀ c ∈ s :: cols, c ∈ x.df.cols) ∧
      (newCols x a).Nodup := by
  constructor
  · rintro ⟨args, h, hnd⟩
    unfold normEntityArgs at h
    split at h
    · cases h
    · cases h
    · cases h
    · rename_i types t hi hty ht
      obtain ⟨t1, t2, t3, t4, t5, t6⟩ := (normTime_iff hm).mp ht
      split at h
      · cases h
      · split at h
        · cases h
        · rename_i f hf
          cases h
          obtain ⟨k1, k2, k3, k4⟩ := (normFrame_iff t2 t3 t5 hx hm).mp ⟨f, hf, hnd⟩
          exact ⟨k1, t1, k2, k3, k4⟩
  · rintro ⟨k1, kt, k2, k3, k4⟩
    obtain ⟨l, hl⟩ := (transferTypes_exists hx (vs := a.additional ++ a.copy)).mpr fun c hc => k1 c (List.mem_cons_of_mem _ hc)
    obtain ⟨v, hv, _⟩ := var?_ofCol hx (k1 a.index (List.mem_cons_self ..))
    obtain ⟨t, ht⟩ : ∃ t, normTime x a = .ok t :=
      ⟨⟨_, _, _, _, _⟩, (normTime_iff hm).mpr ⟨kt, rfl, rfl, rfl, rfl, rfl⟩⟩
    obtain ⟨t1, t2, t3, t4, t5, t6⟩ := (normTime_iff hm).mp ht
    obtain ⟨f, hf, hnd⟩ := (normFrame_iff t2 t3 t5 hx hm).mpr ⟨k1, k2, k3, k4⟩
    unfold normEntityArgs
    rw [hv, hl, ht]
    simp only
    rw [if_neg (by rw [t2]; exact time_ne_index k4 hnamed), hf]
    exact ⟨_, rfl, hnd⟩

theorem normFrame_dtype {x : Entity} {a : NormArgs} {t : NormTime} {f : DataFrame} (h : normFrame x a t = .ok f)
    (h1 : t.time ≠ some a.index) (h2 : ∀ s cols, a.makeSecondary = [(s, cols)] → a.index ≠ a.newSecondary.getD s) :
    f.dtype a.index = x.df.dtype a.index := by
  have h0 : (normFrame0 x a t).dtype a.index = x.df.dtype a.index := by
    unfold normFrame0
    split
    · rename_i s d hs hd
      simp only
      rw [if_neg]
      rintro rfl
      exact h1 hd
    · rfl
  unfold normFrame at h
  simp only at h
  split at h
  · split at h
    · cases h; exact h0
    · rename_i s cols hs
      split at h
      · split at h
        · cases h
        · cases h
          simp only
          rw [if_neg (h2 s cols hs)]
          split
          · rfl
          · exact h0
      · cases h
    · cases h
  · cases h

theorem normEntityArgs_prepared {x : Entity} (hx : Coherent x) {a : NormArgs} {args : EntityArgs} (hm : ∀ s, x.timeIndex = some s → s ∉ a.additional)
    (h : normEntityArgs x a = .ok args) (hnd : args.df.cols.Nodup) : Prepared x a args := by
  unfold normEntityArgs at h
  split at h
  · cases h
  · cases h
  · cases h
  · rename_i types t hi hty ht
    obtain ⟨t1, t2, t3, t4, t5, t6⟩ := (normTime_iff hm).mp ht
    split at h
    · cases h
    · rename_i hne
      split at h
      · cases h
      · rename_i f hf
        cases h
        simp only at hnd
        obtain ⟨k1, k2, k3, k4⟩ := (normFrame_iff t2 t3 t5 hx hm).mp ⟨f, hf, hnd⟩
        obtain ⟨d1, d2, d3⟩ := normFrame_data t2 t3 t5 hx hm (by rw [← t2]; exact hne) hf hnd
        obtain ⟨y1, y2⟩ := (transferTypes_iff hx).mp hty
        obtain ⟨l, l1, l2, l3⟩ := time_types hx a
        have hl : t.types = l := t6.trans l1
        have hidx : a.index ∉ a.additional ++ a.copy := by
          unfold newCols at k4
          have := (List.nodup_append.mp (List.nodup_append.mp k4).1).1
          rw [List.cons_append, List.nodup_cons] at this
          exact this.1
        have htc : ∀ c ∈ timeColumn x a, c ∉ a.additional ++ a.copy := by
          intro c hc hc'
          unfold newCols at k4
          exact (List.nodup_append.mp (List.nodup_append.mp k4).1).2.2 c (List.mem_cons_of_mem _ hc') c hc rfl
        refine ⟨rfl, rfl, rfl, t2, t4, ?_, d1, d2.trans (firstRows_keys ..), d3, ?_, ?_, ?_, ?_⟩
        · show normSecondary a = _
          unfold normSecondary newSecondary
          rcases k3 with hs | ⟨s, cols, hs, hsc, _⟩
          · rw [hs]
          · rw [hs]
            simp only
            rw [map_renameCol_eq hsc]
        · refine normFrame_dtype hf hne fun s cols hs he => ?_
          unfold newCols newSecondary at k4
          rw [hs] at k4
          exact (List.nodup_append.mp k4).2.2 a.index (by simp) _ (List.mem_cons_self ..) he
        · simp only [List.cons_append, List.map_cons, List.map_append, y1, hl, l2]
        · intro p hp hpc
          simp only [List.cons_append, List.mem_cons, List.mem_append] at hp
          rcases hp with rfl | hp | hp
          · exact absurd hpc hidx
          · exact y2 p hp
          · rw [hl] at hp
            exact absurd hpc (htc p.1 (by rw [← l2]; exact List.mem_map_of_mem hp))
        · intro hn p hp
          simp only [List.cons_append, List.mem_cons, List.mem_append] at hp
          rcases hp with rfl | hp | hp
          · simp
          · obtain ⟨v, _, _, hv⟩ := y2 p hp
            rw [hv]
            simpa using carriedType_ne v.type
          · rw [hl, l3 hn] at hp
            cases hp

/-! ### The end of `normalize_entity` -/

theorem ensureType_get? {es : ESet} {e v t : String} (h : ∀ z, es.get? e = some z → ∀ y ∈ z.vars, y.id = v → y.type = t) (e' : String) :
    (ensureType es e v t).get? e' = es.get? e' := by
  unfold ensureType
  refine (get?_modify (fun x hx => by exact hx) e').trans ?_
  split
  · rename_i he
    subst he
    cases hz : es.get? e' with
    | none => rfl
    | some z =>
      rw [Option.map_some]
      congr 1
      have : (z.vars.map fun y => if (y.id == v && y.type != t) = true then y.createFrom t else y) = z.vars := by
        conv => rhs; rw [← List.map_id z.vars]
        refine List.map_congr_left fun y hy => ?_
        rw [if_neg]
        · rfl
        · intro hc
          simp only [Bool.and_eq_true, beq_iff_eq, bne_iff_ne] at hc
          exact hc.2 (h z hz y hy hc.1)
      rw [this]
  · rfl

/-- An entity with other dtypes. -/
def SameButDtype (x y : Entity) : Prop := ∃ d, y = { x with df := { x.df with dtype := d } }

theorem fixEmptyDtype_get? (lib : Lib) {es : ESet} {pe pv ce cv : String} {p c : Entity} (hp : es.get? pe = some p) (hc : es.get? ce = some c) :
    (∃ c', (fixEmptyDtype lib es pe pv ce cv).get? ce = some c' ∧ SameButDtype c c' ∧ ((c.df.dtype cv == "object" && lib.numeric (p.df.dtype pv)) = false → c' = c)) ∧
    ∀ e, e ≠ ce → (fixEmptyDtype lib es pe pv ce cv).get? e = es.get? e := by
  unfold fixEmptyDtype
  rw [hp]
  simp only
  have hg := fun e' => get?_modify (es := es) (e := ce) (f := fun c => if (c.df.rows.isEmpty && c.df.dtype cv == "object" && lib.numeric (p.df.dtype pv)) = true then
      { c with df := { c.df with dtype := fun x => if x = cv then "int64" else c.df.dtype x } } else c) (fun x hx => by split <;> exact hx) e'
  refine ⟨⟨_, by rw [hg, if_pos rfl, hc]; rfl, ?_, ?_⟩, fun e he => by rw [hg, if_neg he]⟩
  · dsimp only
    split
    · exact ⟨_, rfl⟩
    · exact ⟨_, rfl⟩
  · intro h
    dsimp only
    rw [if_neg]
    intro hh
    simp only [Bool.and_eq_true] at hh
    rw [hh.1.2, hh.2] at h
    cases h

/-- The base entity without the moved columns and with the key as a foreign key. -/
def baseAfter (x : Entity) (a : NormArgs) : Entity :=
  { x with vars := (x.vars.filter fun v => decide (v.id ∉ a.additional)).map fun y => if y.id == a.index then y.createFrom "id" else y
           df := { x.df with cols := x.df.cols.filter fun c => decide (c ∉ a.additional) } }

theorem baseAfter_ids (x : Entity) (a : NormArgs) : (baseAfter x a).vars.map Var.id = (x.vars.map Var.id).filter fun c => decide (c ∉ a.additional) := by
  unfold baseAfter
  simp only [List.map_map, List.filter_map]
  refine List.map_congr_left fun v _ => ?_
  simp only [Function.comp]
  split <;> rfl

theorem baseAfter_key {x : Entity} {a : NormArgs} : ∀ y ∈ (baseAfter x a).vars, y.id = a.index → y.type = "id" := by
  intro y hy hi
  obtain ⟨v, hv, rfl⟩ := List.mem_map.mp hy
  split
  · rfl
  · rename_i hn
    rw [if_neg hn] at hi
    exact absurd hi (by simpa using hn)

theorem isBase_of {x y : Entity} {a : NormArgs} (h : SameButDtype (baseAfter x a) y) : IsBase x a y := by
  obtain ⟨d, rfl⟩ := h
  refine ⟨rfl, rfl, rfl, rfl, rfl, rfl, rfl, baseAfter_ids x a, ?_, ?_⟩
  · intro w hw hi
    obtain ⟨v, hv, rfl⟩ := List.mem_map.mp hw
    refine ⟨v, (List.mem_filter.mp hv).1, ?_⟩
    by_cases hv' : v.id = a.index
    · simp only [hv', beq_self_eq_true, if_true]
      exact ⟨rfl, rfl, rfl, rfl, rfl, rfl⟩
    · rw [if_neg (by simpa using hv')] at hi
      exact absurd hi hv'
  · intro w hw hi
    obtain ⟨v, hv, rfl⟩ := List.mem_map.mp hw
    by_cases hv' : v.id = a.index
    · rw [if_pos (by simpa using hv')] at hi
      exact absurd hv' hi
    · rw [if_neg (by simpa using hv')]
      exact (List.mem_filter.mp hv).1

/-- Deleting and converting. -/
theorem normFinish_start {lib : Lib} {es : ESet} {a : NormArgs} {x : Entity} (hx : Coherent x) (hg : es.get? a.base = some x) :
    (normFinish lib es a).2 = none → a.additional.Nodup ∧ (∀ v ∈ a.additional, v ∈ x.df.cols) ∧ a.index ∈ x.df.cols ∧ a.index ∉ a.additional := by
  unfold normFinish deleteVariables
  rw [hg]
  simp only
  cases hd : x.deleteVars a.additional with
  | mk y e =>
    cases e with
    | some e => intro h; cases h
    | none =>
      obtain ⟨d1, d2, d3⟩ := (deleteVars_iff hx a.additional).mp hd
      simp only
      have hid := (get?_mem hg).2
      have hyid : y.id = a.base := by rw [d3]; exact hid
      have hg1 : (es.modify a.base fun _ => y).get? a.base = some y := by
        rw [get?_modify (fun _ _ => hyid), if_pos rfl, hg]; rfl
      unfold convertVariableType
      rw [hg1]
      simp only
      intro h
      refine ⟨d1, d2, ?_⟩
      unfold Entity.convertType at h
      split at h
      · cases h
      · rename_i hc
        split at hc
        · rename_i z hz
          split at hz
          · cases hz
          · rename_i w hw
            have hmem : w ∈ y.vars := List.mem_of_find?_eq_some hw
            have hwi : w.id = a.index := by simpa using List.find?_some hw
            rw [d3] at hmem
            have hm := List.mem_filter.mp hmem
            refine ⟨?_, by simpa [hwi] using hm.2⟩
            rw [← hwi, ← hx.vars]
            exact List.mem_map_of_mem hm.1
        · cases hc

theorem normFinish_middle {lib : Lib} {es : ESet} {a : NormArgs} {x : Entity} (hx : Coherent x) (hg : es.get? a.base = some x)
    (h1 : a.additional.Nodup) (h2 : ∀ v ∈ a.additional, v ∈ x.df.cols) (h3 : a.index ∈ x.df.cols) (h4 : a.index ∉ a.additional) :
    ∃ es1 : ESet, es1.get? a.base = some (baseAfter x a) ∧ (∀ e, e ≠ a.base → es1.get? e = es.get? e) ∧ es1.rels = es.rels ∧ es1.timeType = es.timeType ∧
      normFinish lib es a = match addRelationship lib es1 ⟨a.new, a.index, a.base, a.index⟩ with
      | (es, some e) => (es, some e)
      | (es, none) => ({ es with cache := none }, none) := by
  have hd := (deleteVars_iff hx a.additional).mpr ⟨h1, h2, rfl⟩
  unfold normFinish deleteVariables
  rw [hg]
  simp only [hd]
  have hid := (get?_mem hg).2
  generalize hy : ({ x with vars := x.vars.filter (fun v => decide (v.id ∉ a.additional)), df := { x.df with cols := x.df.cols.filter fun c => decide (c ∉ a.additional) } } : Entity) = y
  have hyid : y.id = a.base := by rw [← hy]; exact hid
  have hgy := fun e => get?_modify (es := es) (e := a.base) (f := fun _ => y) (fun _ _ => hyid) e
  have hg1 : (es.modify a.base fun _ => y).get? a.base = some y := by
    rw [hgy, if_pos rfl, hg]; rfl
  have hkey : a.index ∈ y.vars.map Var.id := by
    rw [← hx.vars] at h3
    obtain ⟨v, hv, hvi⟩ := List.mem_map.mp h3
    rw [← hy]
    exact List.mem_map.mpr ⟨v, List.mem_filter.mpr ⟨hv, by rw [hvi]; simpa using h4⟩, hvi⟩
  unfold convertVariableType
  rw [hg1]
  simp only [convertType_of (t := "id") hkey]
  have hb : ({ y with vars := y.vars.map fun y => if y.id == a.index then y.createFrom "id" else y } : Entity) = baseAfter x a := by
    rw [← hy]; rfl
  rw [hb]
  have hgz := fun e => get?_modify (es := es.modify a.base fun _ => y) (e := a.base) (f := fun _ => baseAfter x a) (fun _ _ => hid) e
  refine ⟨(es.modify a.base fun _ => y).modify a.base fun _ => baseAfter x a, ?_, fun e he => ?_, rfl, rfl, rfl⟩
  · rw [hgz, if_pos rfl, hg1]; rfl
  · rw [hgz, if_neg he, hgy, if_neg he]

/-- Relating the two entities. -/
theorem normFinish_relate {lib : Lib} {es : ESet} {a : NormArgs} {x n : Entity} (hg : es.get? a.base = some (baseAfter x a))
    (hn : es.get? a.new = some n) (hne : a.new ≠ a.base) (hi : n.index = a.index) (hki : a.index ∈ n.vars.map Var.id)
    (hkt : ∀ v ∈ n.vars, v.id = a.index → v.type = "index") (hxi : x.index ≠ a.index) (hbi : a.index ∈ (baseAfter x a).vars.map Var.id) :
    ∃ y es1, SameButDtype (baseAfter x a) y ∧ es1.get? a.base = some y ∧ es1.timeType = es.timeType ∧ (∀ e, e ≠ a.base → es1.get? e = es.get? e) ∧
      es1.rels = es.rels ∧
      (((baseAfter x a).df.dtype a.index == "object" && lib.numeric (n.df.dtype a.index)) = false → y = baseAfter x a) ∧
      addRelationship lib es ⟨a.new, a.index, a.base, a.index⟩ =
        if ⟨a.new, a.index, a.base, a.index⟩ ∈ es.rels then (es, none)
        else if n.df.dtype a.index ≠ y.df.dtype a.index then (es1, some .valueError)
        else ({ es1 with rels := es.rels ++ [⟨a.new, a.index, a.base, a.index⟩], cache := none }, none) := by
  have hv : ∀ {z : Entity} {c : String}, c ∈ z.vars.map Var.id → (z.var? c).isNone = false := by
    intro z c h
    obtain ⟨v, hv, hvi⟩ := List.mem_map.mp h
    unfold Entity.var?
    rw [Option.isNone_eq_false_iff, List.find?_isSome]
    exact ⟨v, hv, by simp [hvi]⟩
  have g1 := ensureType_get? (es := es) (e := a.base) (v := a.index) (t := "id") (fun z hz => by
    rw [hg] at hz; cases hz; exact baseAfter_key)
  have g2 := ensureType_get? (es := ensureType es a.base a.index "id") (e := a.new) (v := a.index) (t := "index") (fun z hz => by
    rw [g1, hn] at hz; cases hz; exact hkt)
  obtain ⟨⟨y, f1, f2, f3⟩, f4⟩ := fixEmptyDtype_get? lib (es := ensureType (ensureType es a.base a.index "id") a.new a.index "index")
    (pe := a.new) (pv := a.index) (ce := a.base) (cv := a.index) (p := n) (c := baseAfter x a) (by rw [g2, g1, hn]) (by rw [g2, g1, hg])
  have ht : ∀ (es : ESet), (fixEmptyDtype lib es a.new a.index a.base a.index).timeType = es.timeType ∧
      (fixEmptyDtype lib es a.new a.index a.base a.index).rels = es.rels := by
    intro es
    unfold fixEmptyDtype
    split <;> exact ⟨rfl, rfl⟩
  refine ⟨y, fixEmptyDtype lib (ensureType (ensureType es a.base a.index "id") a.new a.index "index") a.new a.index a.base a.index, f2, f1, (ht _).1,
    fun e he => by rw [f4 e he, g2, g1], (ht _).2, f3, ?_⟩
  unfold addRelationship addNewRelationship
  simp only [hn, hg]
  rw [hv hki, hv hbi]
  simp only [Bool.or_self, Bool.false_eq_true, if_false]
  rw [if_neg (by simpa using hi)]
  by_cases hr : (⟨a.new, a.index, a.base, a.index⟩ : Relationship) ∈ es.rels
  · rw [if_pos (by simpa using hr), if_pos hr]
  · rw [if_neg (by simpa using hr), if_neg hr, if_neg (show ¬ (baseAfter x a).index = a.index from hxi)]
    have d1 : (fixEmptyDtype lib (ensureType (ensureType es a.base a.index "id") a.new a.index "index") a.new a.index a.base a.index).dtypeOf a.new a.index =
        some (n.df.dtype a.index) := by
      unfold ESet.dtypeOf
      rw [f4 _ hne, g2, g1, hn]
      rfl
    have d2 : (fixEmptyDtype lib (ensureType (ensureType es a.base a.index "id") a.new a.index "index") a.new a.index a.base a.index).dtypeOf a.base a.index =
        some (y.df.dtype a.index) := by
      unfold ESet.dtypeOf
      rw [f1]
      rfl
    simp only [d1, d2, ne_eq, Option.some.injEq]
    rw [(ht _).2]
    rfl

end FT
