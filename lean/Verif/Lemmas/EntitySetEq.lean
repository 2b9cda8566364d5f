import Verif.Spec.EntitySetEq
import Verif.Lemmas.Normalize
/-! # Lemmas about comparing and concatenating entity sets -/
namespace FT
open Spec

theorem setEqBy_iff {α : Type} (eq : α → α → Bool) (a b : List α) :
    setEqBy eq a b = true ↔ (∀ v ∈ a, ∃ w ∈ b, eq v w = true) ∧ ∀ w ∈ b, ∃ v ∈ a, eq v w = true := by
  simp [setEqBy, List.all_eq_true, List.any_eq_true]

theorem setEqBy_beq_iff {α : Type} [DecidableEq α] (a b : List α) : setEqBy (· == ·) a b = true ↔ ∀ x, x ∈ a ↔ x ∈ b := by
  rw [setEqBy_iff]
  simp only [beq_iff_eq]
  constructor
  · rintro ⟨h1, h2⟩ x
    constructor
    · intro hx; obtain ⟨w, hw, rfl⟩ := h1 x hx; exact hw
    · intro hx; obtain ⟨w, hw, rfl⟩ := h2 x hx; exact hw
  · intro h
    exact ⟨fun v hv => ⟨v, (h v).mp hv, rfl⟩, fun w hw => ⟨w, (h w).mpr hw, rfl⟩⟩

theorem sameVars_iff (a b : List Var) :
    setEqBy sameVar a b = true ↔ ∀ i t, (∃ v ∈ a, v.id = i ∧ v.type = t) ↔ ∃ v ∈ b, v.id = i ∧ v.type = t := by
  rw [setEqBy_iff]
  simp only [sameVar, Bool.and_eq_true, beq_iff_eq]
  constructor
  · rintro ⟨h1, h2⟩ i t
    constructor
    · rintro ⟨v, hv, rfl, rfl⟩
      obtain ⟨w, hw, e1, e2⟩ := h1 v hv
      exact ⟨w, hw, e1.symm, e2.symm⟩
    · rintro ⟨v, hv, rfl, rfl⟩
      obtain ⟨w, hw, e1, e2⟩ := h2 v hv
      exact ⟨w, hw, e1, e2⟩
  · intro h
    constructor
    · intro v hv
      obtain ⟨w, hw, e1, e2⟩ := (h v.id v.type).mp ⟨v, hv, rfl, rfl⟩
      exact ⟨w, hw, e1.symm, e2.symm⟩
    · intro v hv
      obtain ⟨w, hw, e1, e2⟩ := (h v.id v.type).mpr ⟨v, hv, rfl, rfl⟩
      exact ⟨w, hw, e1, e2⟩

theorem lookup_of_mem_nodup {β : Type} {l : List (String × β)} (hn : (l.map Prod.fst).Nodup) {p : String × β} (hp : p ∈ l) :
    l.lookup p.1 = some p.2 := by
  induction l with
  | nil => cases hp
  | cons a l ih =>
    obtain ⟨k, v⟩ := a
    simp only [List.map_cons, List.nodup_cons] at hn
    rcases List.mem_cons.mp hp with rfl | hp'
    · simp [List.lookup]
    · have : p.1 ≠ k := fun h => hn.1 (h ▸ List.mem_map_of_mem hp')
      have hb : (p.1 == k) = false := by simpa using this
      simp only [List.lookup, hb]
      exact ih hn.2 hp'

theorem mem_of_lookup {β : Type} {l : List (String × β)} {k : String} {v : β} (h : l.lookup k = some v) : (k, v) ∈ l := by
  induction l with
  | nil => cases h
  | cons a l ih =>
    obtain ⟨k', v'⟩ := a
    simp only [List.lookup] at h
    split at h
    · rename_i he; cases h; rw [eq_of_beq he]; exact List.mem_cons_self ..
    · exact List.mem_cons_of_mem _ (ih h)

/-- A list without repetitions contained in another of at most its length has the same elements. -/
theorem subset_eq_of_length {α : Type} [DecidableEq α] {a b : List α} (hn : a.Nodup) (hs : ∀ x ∈ a, x ∈ b) (hl : b.length ≤ a.length) :
    ∀ x ∈ b, x ∈ a := by
  induction a generalizing b with
  | nil =>
    have : b = [] := List.length_eq_zero_iff.mp (by simpa using hl)
    subst this; simp
  | cons y a ih =>
    rw [List.nodup_cons] at hn
    have hy := hs y (List.mem_cons_self ..)
    have := ih (b := b.erase y) hn.2 (fun x hx => by
      have hne : x ≠ y := by rintro rfl; exact hn.1 hx
      exact (List.mem_erase_of_ne hne).mpr (hs x (List.mem_cons_of_mem _ hx))) (by
      rw [List.length_erase_of_mem hy]; simp only [List.length_cons] at hl; omega)
    intro x hx
    by_cases hxy : x = y
    · exact hxy ▸ List.mem_cons_self ..
    · exact List.mem_cons_of_mem _ (this x ((List.mem_erase_of_ne hxy).mpr hx))

theorem nodup_of_map {α β : Type} {f : α → β} {l : List α} (h : (l.map f).Nodup) : l.Nodup := by
  induction l with
  | nil => simp
  | cons a l ih =>
    simp only [List.map_cons, List.nodup_cons] at h ⊢
    exact ⟨fun ha => h.1 (List.mem_map_of_mem ha), ih h.2⟩

theorem nodup_length_le {α : Type} [DecidableEq α] {a b : List α} (hn : a.Nodup) (hs : ∀ x ∈ a, x ∈ b) : a.length ≤ b.length := by
  induction a generalizing b with
  | nil => simp
  | cons y a ih =>
    rw [List.nodup_cons] at hn
    have hy := hs y (List.mem_cons_self ..)
    have := ih (b := b.erase y) hn.2 (fun x hx => by
      have hne : x ≠ y := by rintro rfl; exact hn.1 hx
      exact (List.mem_erase_of_ne hne).mpr (hs x (List.mem_cons_of_mem _ hx)))
    rw [List.length_erase_of_mem hy] at this
    have hb : 0 < b.length := List.length_pos_of_mem hy
    simp only [List.length_cons]; omega

theorem dictEq_iff {a b : List (String × List String)} (ha : (a.map Prod.fst).Nodup) (hb : (b.map Prod.fst).Nodup) :
    dictEq a b = true ↔ ∀ p, p ∈ a ↔ p ∈ b := by
  unfold dictEq
  simp only [Bool.and_eq_true, beq_iff_eq, List.all_eq_true]
  constructor
  · rintro ⟨hl, h⟩ p
    have hs : ∀ q ∈ a, q ∈ b := fun q hq => mem_of_lookup (h q hq)
    exact ⟨hs p, subset_eq_of_length (nodup_of_map ha) hs (by omega) p⟩
  · intro h
    refine ⟨?_, fun p hp => lookup_of_mem_nodup hb ((h p).mp hp)⟩
    have h1 := nodup_length_le (nodup_of_map ha) fun q hq => (h q).mp hq
    have h2 := nodup_length_le (nodup_of_map hb) fun q hq => (h q).mpr hq
    omega

theorem entityEq_shallow {x y : Entity} (hx : (x.secondary.map Prod.fst).Nodup) (hy : (y.secondary.map Prod.fst).Nodup) :
    entityEq false x y = true ↔ SameEntity x y := by
  unfold entityEq
  simp only [Bool.and_eq_true, beq_iff_eq, Bool.not_false, Bool.true_or, and_true, sameVars_iff, dictEq_iff hx hy]
  constructor
  · rintro ⟨⟨⟨⟨h1, h2⟩, h3⟩, h4⟩, h5⟩; exact ⟨h1, h2, h3, h4, h5⟩
  · rintro ⟨h1, h2, h3, h4, h5⟩; exact ⟨⟨⟨⟨h1, h2⟩, h3⟩, h4⟩, h5⟩

theorem esEq_shallow {a b : ESet} (ha : Dicts a) (hb : Dicts b) :
    esEq false a b = true ↔ SameEntities a b ∧ ∀ r ∈ a.rels, r ∈ b.rels := by
  unfold esEq
  simp only [Bool.and_eq_true, beq_iff_eq, List.all_eq_true, List.contains_iff_mem]
  constructor
  · rintro ⟨⟨hl, h⟩, hr⟩
    have hs : ∀ e ∈ a.entities.map Entity.id, e ∈ b.entities.map Entity.id := by
      intro e he
      obtain ⟨x, hx, rfl⟩ := List.mem_map.mp he
      have := h x hx
      split at this
      · rename_i y hy; exact List.mem_map.mpr ⟨y, (get?_mem hy).1, (get?_mem hy).2⟩
      · cases this
    refine ⟨⟨fun e => ⟨hs e, subset_eq_of_length ha.ids hs (by simp; omega) e⟩, ?_⟩, hr⟩
    intro x hx y hy he
    have := h x hx
    rw [he, get?_of_mem hb.ids hy] at this
    exact (entityEq_shallow (ha.secondary x hx) (hb.secondary y hy)).mp this
  · rintro ⟨⟨hids, h⟩, hr⟩
    refine ⟨⟨?_, ?_⟩, hr⟩
    · have h1 := nodup_length_le ha.ids fun q hq => (hids q).mp hq
      have h2 := nodup_length_le hb.ids fun q hq => (hids q).mpr hq
      simp only [List.length_map] at h1 h2
      omega
    · intro x hx
      obtain ⟨y, hy, he⟩ := List.mem_map.mp ((hids x.id).mp (List.mem_map_of_mem hx))
      rw [← he, get?_of_mem hb.ids hy]
      exact (entityEq_shallow (ha.secondary x hx) (hb.secondary y hy)).mpr (h x hx y hy he.symm)

theorem Spec.SameEntity.rfl' (x : Entity) : SameEntity x x := ⟨rfl, rfl, fun _ => .rfl, rfl, fun _ _ => .rfl⟩
theorem Spec.SameEntity.symm' {x y : Entity} (h : SameEntity x y) : SameEntity y x :=
  ⟨h.index.symm, h.timeIndex.symm, fun p => (h.secondary p).symm, h.count.symm, fun i t => (h.vars i t).symm⟩
theorem Spec.SameEntity.trans' {x y z : Entity} (h : SameEntity x y) (h' : SameEntity y z) : SameEntity x z :=
  ⟨h.index.trans h'.index, h.timeIndex.trans h'.timeIndex, fun p => (h.secondary p).trans (h'.secondary p), h.count.trans h'.count,
   fun i t => (h.vars i t).trans (h'.vars i t)⟩

/-! ### The order of cells -/

theorem sortLe_iff (a b : Val) : a.sortLe b = true ↔ ValLe a b := by
  cases a <;> cases b <;> simp [Val.sortLe, ValLe, Val.rank]
  rename_i x y; cases x <;> simp

theorem valLe_total (a b : Val) : ValLe a b ∨ ValLe b a := by
  cases a <;> cases b <;> simp [ValLe]
  · omega
  · exact String.le_total _ _
  · rename_i x y; cases x <;> cases y <;> simp

theorem valLe_trans {a b c : Val} (h1 : ValLe a b) (h2 : ValLe b c) : ValLe a c := by
  cases a <;> cases b <;> cases c <;> simp_all [ValLe]
  · omega
  · exact String.le_trans h1 h2

theorem valLe_antisymm {a b : Val} (h1 : ValLe a b) (h2 : ValLe b a) : a = b := by
  cases a <;> cases b <;> simp_all [ValLe]
  · omega
  · exact String.le_antisymm h1 h2
  · rename_i x y; cases x <;> cases y <;> simp_all

theorem inOrder_total (t : Option String) (i : String) (a b : Row) : InOrder t i a b ∨ InOrder t i b a := by
  unfold InOrder
  cases t with
  | none => exact valLe_total _ _
  | some t =>
    simp only
    by_cases h : a t = b t
    · rw [if_pos h, if_pos h.symm]; exact valLe_total _ _
    · rw [if_neg h, if_neg (Ne.symm h)]; exact valLe_total _ _

theorem inOrder_trans (t : Option String) (i : String) {a b c : Row} (h1 : InOrder t i a b) (h2 : InOrder t i b c) : InOrder t i a c := by
  unfold InOrder at *
  cases t with
  | none => exact valLe_trans h1 h2
  | some t =>
    simp only at *
    by_cases hab : a t = b t
    · rw [if_pos hab] at h1
      by_cases hbc : b t = c t
      · rw [if_pos hbc] at h2
        rw [if_pos (hab.trans hbc)]
        exact valLe_trans h1 h2
      · rw [if_neg hbc] at h2
        rw [if_neg (by rw [hab]; exact hbc), hab]
        exact h2
    · rw [if_neg hab] at h1
      by_cases hbc : b t = c t
      · rw [if_neg (by rw [← hbc]; exact hab), ← hbc]
        exact h1
      · rw [if_neg hbc] at h2
        have hac : a t ≠ c t := by
          intro h
          rw [← h] at h2
          exact hab (valLe_antisymm h1 h2)
        rw [if_neg hac]
        exact valLe_trans h1 h2

/-- Sorting rows as the model does. -/
theorem sortRows_sorted (t i : String) (rows : List Row) : (sortRows t i rows).Pairwise (InOrder (some t) i) := by
  have hle : ∀ a b : Row, (if a t = b t then (a i).sortLe (b i) else (a t).sortLe (b t)) = true ↔ InOrder (some t) i a b := by
    intro a b
    unfold InOrder
    simp only
    split <;> exact sortLe_iff _ _
  have := isort_sorted (fun a b : Row => if a t = b t then (a i).sortLe (b i) else (a t).sortLe (b t))
    (fun a b => by rw [hle, hle]; exact inOrder_total _ _ _ _) (fun a b c => by rw [hle, hle, hle]; exact inOrder_trans _ _) rows
  exact this.imp fun h => (hle _ _).mp h

theorem sortIndex_sorted (i : String) (rows : List Row) :
    (isort (fun a b : Row => (a i).sortLe (b i)) rows).Pairwise (InOrder none i) := by
  have := isort_sorted (fun a b : Row => (a i).sortLe (b i))
    (fun a b => by rw [sortLe_iff, sortLe_iff]; exact valLe_total _ _) (fun a b c => by rw [sortLe_iff, sortLe_iff, sortLe_iff]; exact valLe_trans) rows
  exact this.imp fun h => (sortLe_iff _ _).mp h

/-! ### Concatenation -/

/-- What `update_data` does when it succeeds. -/
theorem update_ok {lib : Lib} {es es' : ESet} {e : String} {df : DataFrame} {sorted : Bool} {x : Entity} (hx : es.get? e = some x)
    (h : updateData lib es e df sorted = (es', none)) :
    ∃ z, es'.get? e = some z ∧ z.index = x.index ∧ z.timeIndex = x.timeIndex ∧ z.df.rows.Perm df.rows ∧ z.df.cols = x.vars.map Var.id ∧
      (∀ t, x.timeIndex = some t → sorted = false → z.df.rows.Pairwise (InOrder (some t) x.index)) ∧
      (x.timeIndex = none → z.df.rows = df.rows) ∧
      (∀ e', e' ≠ e → es'.get? e' = es.get? e') ∧ es'.rels = es.rels := by
  have hid := (get?_mem hx).2
  unfold updateData at h
  rw [hx] at h
  simp only at h
  split at h
  · cases h
  · split at h
    · split at h
      · cases h
      · rename_i x2 hx2
        obtain ⟨a1, a2, a3, a4, a5, a6, a7⟩ := setIndex_keeps hx2
        cases hti : x.timeIndex with
        | none =>
          simp only [hti] at h
          split at h
          · cases h
          · rename_i x4 hx4
            have := setSecondary_keeps hx4
            subst this
            cases h
            have hg := fun e' => get?_modify (es := es) (e := e) (f := fun _ => { x2 with secondary := addOwnColumn x.secondary })
              (fun _ _ => a1.trans hid) e'
            refine ⟨{ x2 with secondary := addOwnColumn x.secondary }, ?_, a2, by simpa [hti] using a5, ?_, ?_, ?_, ?_, ?_, rfl⟩
            · refine (hg e).trans ?_; rw [if_pos rfl, hx]; rfl
            · show x2.df.rows.Perm _; rw [a3]
            · show x2.df.cols = _; rw [a3]
            · intro t ht; cases ht
            · intro _; show x2.df.rows = _; rw [a3]
            · intro e' he; exact (hg e').trans (if_neg he)
        | some t =>
          simp only [hti] at h
          split at h
          · cases h
          · rename_i x3 hx3
            obtain ⟨b1, b2, b3, b4, b5, b6, b7, b8⟩ := setTimeIndex_keeps hx3
            have hsort : sorted = false → x3.df.rows = sortRows t x2.index x2.df.rows := by
              intro hs
              subst hs
              unfold Entity.setTimeIndex at hx3
              split at hx3
              · split at hx3
                · cases hx3
                · split at hx3
                  · simp only at hx3
                    split at hx3
                    · cases hx3; rfl
                    · cases hx3
                  · cases hx3
              · cases hx3
            split at h
            · cases h
            · rename_i x4 hx4
              have := setSecondary_keeps hx4
              subst this
              cases h
              have hg := fun e' => get?_modify (es := es) (e := e) (f := fun _ => { x3 with secondary := addOwnColumn x.secondary })
                (fun _ _ => b1.trans (a1.trans hid)) e'
              refine ⟨{ x3 with secondary := addOwnColumn x.secondary }, ?_, b2.trans a2, b7, ?_, ?_, ?_, ?_, ?_, rfl⟩
              · refine (hg e).trans ?_; rw [if_pos rfl, hx]; rfl
              · show x3.df.rows.Perm _; rw [a3] at b3; exact b3
              · show x3.df.cols = _; rw [b4, a3]
              · intro t' ht' hs
                cases ht'
                show x3.df.rows.Pairwise _
                rw [hsort hs, a2]
                exact sortRows_sorted _ _ _
              · intro h; cases h
              · intro e' he; exact (hg e').trans (if_neg he)
    · cases h

theorem firstRowsBy_single (k : String) (xs ys : List Row) (hx : (xs.map fun r => r k).Nodup) (hy : (ys.map fun r => r k).Nodup) :
    firstRowsBy [k] (xs ++ ys) = xs ++ ys.filter fun s => decide (s k ∉ xs.map fun r => r k) := by
  have hnil : ∀ ys : List Row, (ys.map fun r => r k).Nodup → firstRowsBy [k] ys = ys := by
    intro ys hy
    induction ys with
    | nil => rfl
    | cons r rs ih =>
      simp only [List.map_cons, List.nodup_cons] at hy
      simp only [firstRowsBy, ih hy.2]
      congr 1
      rw [List.filter_eq_self]
      intro s hs
      have : s k ≠ r k := fun h => hy.1 (h ▸ List.mem_map_of_mem hs)
      simp [this]
  induction xs with
  | nil =>
    simp only [List.nil_append, List.map_nil, List.not_mem_nil, not_false_eq_true, decide_true]
    rw [hnil ys hy]
    symm
    rw [List.filter_eq_self]
    simp
  | cons r rs ih =>
    simp only [List.map_cons, List.nodup_cons] at hx
    simp only [List.cons_append, firstRowsBy, ih hx.2]
    congr 1
    rw [List.filter_append]
    congr 1
    · rw [List.filter_eq_self]
      intro s hs
      have : s k ≠ r k := fun h => hx.1 (h ▸ List.mem_map_of_mem hs)
      simp [this]
    · rw [List.filter_filter]
      apply List.filter_congr
      intro s _
      by_cases h : s k = r k <;> simp [h]

/-- The loop of `concat`. -/
theorem concatLoop_ok {lib : Lib} {other : ESet} {xs : List Entity} {es es' : ESet} (hn : (xs.map Entity.id).Nodup)
    (hx : ∀ x ∈ xs, es.get? x.id = some x) (h : concatLoop lib other xs es = (es', none)) :
    (∀ x ∈ xs, ∃ y z, other.get? x.id = some y ∧ es'.get? x.id = some z ∧ z.index = x.index ∧ z.timeIndex = x.timeIndex ∧
      z.df.rows.Perm (concatRows x y) ∧ z.df.cols = x.vars.map Var.id ∧ z.df.rows.Pairwise (InOrder x.timeIndex x.index)) ∧
    (∀ e, e ∉ xs.map Entity.id → es'.get? e = es.get? e) ∧ es'.rels = es.rels := by
  induction xs generalizing es with
  | nil => cases h; exact ⟨by simp, fun _ _ => rfl, rfl⟩
  | cons x xs ih =>
    simp only [List.map_cons, List.nodup_cons] at hn
    unfold concatLoop at h
    split at h
    · cases h
    · rename_i y hy
      split at h
      · cases h
      · rename_i es1 hes1
        obtain ⟨z, z1, z2, z3, z4, z5, z6, z7, z8, z9⟩ := update_ok (hx x (List.mem_cons_self ..)) hes1
        obtain ⟨i1, i2, i3⟩ := ih (es := es1) hn.2 (fun w hw => by
          have hne : w.id ≠ x.id := fun h => hn.1 (h ▸ List.mem_map_of_mem hw)
          rw [z8 _ hne]
          exact hx w (List.mem_cons_of_mem _ hw)) h
        refine ⟨fun w hw => ?_, fun e he => ?_, i3.trans z9⟩
        · rcases List.mem_cons.mp hw with rfl | hw
          · refine ⟨y, z, hy, by rw [i2 _ hn.1, z1], z2, z3, z4, z5, ?_⟩
            cases hti : w.timeIndex with
            | some t => exact z6 t hti rfl
            | none =>
              rw [z7 hti]
              simp only [concatRows, hti]
              exact sortIndex_sorted _ _
          · exact i1 w hw
        · simp only [List.map_cons, List.mem_cons, not_or] at he
          rw [i2 e he.2, z8 e he.1]

theorem concatRows_perm (x y : Entity) (hc : x.created ≠ some x.index) (hx : (x.df.rows.map fun r => r x.index).Nodup)
    (hy : (y.df.rows.map fun r => r x.index).Nodup) :
    (concatRows x y).Perm (x.df.rows ++ y.df.rows.filter fun s => decide (s x.index ∉ x.df.rows.map fun r => r x.index)) := by
  unfold concatRows
  simp only [if_neg hc]
  rw [firstRowsBy_single _ _ _ hx hy]
  split
  · exact isort_rows_perm _ _ _
  · exact isort_perm _ _

end FT
