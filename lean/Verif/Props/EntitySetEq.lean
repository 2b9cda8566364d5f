import Verif.Lemmas.EntitySetEq
import Verif.Props.EntitySet
/-! # Properties of comparing and concatenating entity sets: C13, C14 -/
namespace FT
open Spec

/-! ### C14 -/

/-- **C14.** What `es1 == es2` decides: same entity ids, agreeing entities (index, time indexes, variables with their types),
and every relationship of the first in the second. -/
theorem C14_equal_iff (a b : ESet) (ha : Dicts a) (hb : Dicts b) :
    esEq false a b = true ↔ SameEntities a b ∧ ∀ r ∈ a.rels, r ∈ b.rels := esEq_shallow ha hb

/-- **C14.** Equality is reflexive. -/
theorem C14_refl (a : ESet) (ha : Dicts a) : esEq false a a = true :=
  (esEq_shallow ha ha).mpr ⟨⟨fun _ => .rfl, fun x hx y hy he => by
    have h1 := get?_of_mem ha.ids hx
    have h2 := get?_of_mem ha.ids hy
    rw [he, h2] at h1
    cases h1
    exact SameEntity.rfl' _⟩, fun _ h => h⟩

/-- **C14.** Equality is transitive. -/
theorem C14_trans (a b c : ESet) (ha : Dicts a) (hb : Dicts b) (hc : Dicts c) (h1 : esEq false a b = true) (h2 : esEq false b c = true) :
    esEq false a c = true := by
  rw [esEq_shallow ha hb] at h1
  rw [esEq_shallow hb hc] at h2
  rw [esEq_shallow ha hc]
  refine ⟨⟨fun e => (h1.1.1 e).trans (h2.1.1 e), fun x hx z hz he => ?_⟩, fun r hr => h2.2 r (h1.2 r hr)⟩
  obtain ⟨y, hy, hye⟩ := List.mem_map.mp ((h1.1.1 x.id).mp (List.mem_map_of_mem hx))
  exact (h1.1.2 x hx y hy hye.symm).trans' (h2.1.2 y hy z hz (hye.trans he))

/-- **C14.** Equality is symmetric between entity sets with equally many relationships (none listed twice). Missing: when the
second has more relationships; see `C14_symmetry_violated`. -/
theorem C14_symm_partial (a b : ESet) (ha : Dicts a) (hb : Dicts b) (hn : a.rels.Nodup) (hl : a.rels.length = b.rels.length)
    (h : esEq false a b = true) : esEq false b a = true := by
  rw [esEq_shallow ha hb] at h
  rw [esEq_shallow hb ha]
  exact ⟨⟨fun e => (h.1.1 e).symm, fun y hy x hx he => (h.1.2 x hx y hy he.symm).symm'⟩,
    subset_eq_of_length hn h.2 (by omega)⟩

/-- **C14 is violated**: an entity set without a relationship equals the one with it, not the other way round. -/
theorem C14_symmetry_violated :
    let a : ESet := { EsExample.es3 with rels := [] }
    esEq false a EsExample.es3 = true ∧ esEq false EsExample.es3 a = false := by decide

/-- **C14 is violated**: deep equality does not look at the cells of frames that have rows. -/
theorem C14_deep_data_violated :
    let a := EsExample.es3
    let b := a.modify "custs" fun x => { x with df := { x.df with rows := [fun _ => .num 5] } }
    esEq true a b = true ∧ (a.get? "custs").map (fun x => x.df.rows.length) = some 2 ∧ (b.get? "custs").map (fun x => x.df.rows.length) = some 1 := by
  decide

/-- **C14.** Deep equality implies equality, equal last time indexes and, for every variable, the same interesting values; it
distinguishes an entity with rows from one without. Missing: different cells (see `C14_deep_data_violated`). -/
theorem C14_deep_partial (a b : ESet) (ha : Dicts a) (hb : Dicts b) (h : esEq true a b = true) :
    esEq false a b = true ∧ ∀ x ∈ a.entities, ∀ y ∈ b.entities, x.id = y.id →
      x.lti = y.lti ∧ (x.df.rows = [] ↔ y.df.rows = []) ∧ (x.df.rows = [] → ∀ c, c ∈ x.df.cols ↔ c ∈ y.df.cols) ∧
      ∀ v ∈ x.vars, ∃ w ∈ y.vars, v.id = w.id ∧ v.type = w.type ∧ ∀ u, u ∈ v.interesting ↔ u ∈ w.interesting := by
  unfold esEq at h ⊢
  simp only [Bool.and_eq_true, beq_iff_eq, List.all_eq_true] at h ⊢
  obtain ⟨⟨hl, he⟩, hr⟩ := h
  refine ⟨⟨⟨hl, fun x hx => ?_⟩, hr⟩, fun x hx y hy hid => ?_⟩
  · have := he x hx
    split at this
    · rename_i y hy
      unfold entityEq at this ⊢
      simp only [Bool.and_eq_true] at this ⊢
      exact ⟨this.1, by simp⟩
    · cases this
  · have := he x hx
    rw [hid, get?_of_mem hb.ids hy] at this
    unfold entityEq at this
    simp only [Bool.and_eq_true, beq_iff_eq, Bool.not_true, Bool.false_or] at this
    obtain ⟨_, ⟨h1, h2⟩, h3⟩ := this
    refine ⟨h1, ?_, ?_, ?_⟩
    · unfold framesEqual at h2
      cases hxr : x.df.rows <;> cases hyr : y.df.rows <;> simp_all
    · intro hx0
      unfold framesEqual at h2
      cases hyr : y.df.rows
      · rw [hx0, hyr] at h2
        simp at h2
        exact (setEqBy_beq_iff _ _).mp h2
      · rw [hx0, hyr] at h2; simp at h2
    · intro v hv
      unfold deepVarsEq at h3
      have := List.all_eq_true.mp h3 v hv
      split at this
      · rename_i w hw
        have hs := List.find?_some hw
        simp only [sameVar, Bool.and_eq_true, beq_iff_eq] at hs
        exact ⟨w, List.mem_of_find?_eq_some hw, hs.1, hs.2, (setEqBy_beq_iff _ _).mp this⟩
      · cases this

theorem EsExample.es3_dicts : Dicts EsExample.es3 := ⟨by decide, by
  have h : EsExample.es3.entities.map (fun x => x.secondary.map Prod.fst) = [[], []] := by decide
  intro x hx
  have := List.mem_map_of_mem (f := fun x : Entity => x.secondary.map Prod.fst) hx
  rw [h] at this
  simp only [List.mem_cons, List.not_mem_nil, or_false, or_self] at this
  rw [this]
  simp⟩

/-- The hypotheses are met by the example: it equals itself. -/
example : Dicts EsExample.es3 ∧ esEq false EsExample.es3 EsExample.es3 = true ∧ EsExample.es3.rels.Nodup := ⟨EsExample.es3_dicts, by decide, by decide⟩

/-! ### C13 -/

/-- **C13.** When `concat` succeeds, every entity whose index was not made by `make_index` has the rows of the first entity
set and those rows of the second whose index value the first does not have, in order of time and index. Missing: made
indexes, see `C13_made_index_violated`. -/
theorem C13_concat_partial (lib : Lib) (a b c : ESet) (ha : Dicts a) (hua : IndexUnique a) (hub : IndexUnique b) (hb : Dicts b)
    (h : concat lib a b = (c, none)) (x : Entity) (hx : x ∈ a.entities) (hm : x.created ≠ some x.index) :
    ∃ y z, b.get? x.id = some y ∧ c.get? x.id = some z ∧ z.index = x.index ∧ z.timeIndex = x.timeIndex ∧ z.df.cols = x.vars.map Var.id ∧
      z.df.rows.Perm (x.df.rows ++ y.df.rows.filter fun s => decide (s x.index ∉ x.df.rows.map fun r => r x.index)) ∧
      z.df.rows.Pairwise (InOrder x.timeIndex x.index) := by
  unfold concat at h
  split at h
  · rename_i heq
    simp only [Bool.and_eq_true] at heq
    have hs := (esEq_shallow ha hb).mp heq.1
    obtain ⟨h1, _⟩ := concatLoop_ok ha.ids (fun w hw => get?_of_mem ha.ids hw) h
    obtain ⟨y, z, hy, hz, z1, z2, z3, z4, z5⟩ := h1 x hx
    have hsame := hs.1.2 x hx y (get?_mem hy).1 (get?_mem hy).2.symm
    refine ⟨y, z, hy, hz, z1, z2, z4, z3.trans (concatRows_perm x y hm (hua x hx) ?_), z5⟩
    rw [hsame.index]
    exact hub y (get?_mem hy).1
  · cases h

/-- **C13.** No index value of either entity set is lost, and none is doubled. -/
theorem C13_index_values_partial (lib : Lib) (a b c : ESet) (ha : Dicts a) (hua : IndexUnique a) (hub : IndexUnique b) (hb : Dicts b)
    (h : concat lib a b = (c, none)) (x : Entity) (hx : x ∈ a.entities) (hm : x.created ≠ some x.index) :
    ∃ y z, b.get? x.id = some y ∧ c.get? x.id = some z ∧ (z.df.rows.map fun r => r z.index).Nodup ∧
      ∀ v, v ∈ z.df.rows.map (fun r => r z.index) ↔ v ∈ x.df.rows.map (fun r => r x.index) ∨ v ∈ y.df.rows.map fun r => r y.index := by
  have hs : SameEntities a b := by
    unfold concat at h
    split at h
    · rename_i heq
      simp only [Bool.and_eq_true] at heq
      exact ((esEq_shallow ha hb).mp heq.1).1
    · cases h
  obtain ⟨y, z, hy, hz, z1, _, _, z4, _⟩ := C13_concat_partial lib a b c ha hua hub hb h x hx hm
  have hsame := hs.2 x hx y (get?_mem hy).1 (get?_mem hy).2.symm
  have huy := hub y (get?_mem hy).1
  have hux := hua x hx
  rw [← hsame.index] at huy
  refine ⟨y, z, hy, hz, ?_, fun v => ?_⟩
  · rw [z1, (z4.map fun r => r x.index).nodup_iff, List.map_append, List.nodup_append]
    refine ⟨hux, List.Nodup.sublist (List.Sublist.map _ List.filter_sublist) huy, ?_⟩
    intro u hu w hw he
    obtain ⟨s, hs', rfl⟩ := List.mem_map.mp hw
    have := (List.mem_filter.mp hs').2
    simp only [decide_eq_true_eq] at this
    exact this (he ▸ hu)
  · rw [z1, (z4.map fun r => r x.index).mem_iff, List.map_append, List.mem_append, ← hsame.index]
    constructor
    · rintro (h | h)
      · exact .inl h
      · obtain ⟨s, hs', rfl⟩ := List.mem_map.mp h
        exact .inr (List.mem_map.mpr ⟨s, (List.mem_filter.mp hs').1, rfl⟩)
    · rintro (h | h)
      · exact .inl h
      · by_cases hv : v ∈ x.df.rows.map fun r => r x.index
        · exact .inl hv
        · obtain ⟨s, hs', rfl⟩ := List.mem_map.mp h
          exact .inr (List.mem_map.mpr ⟨s, List.mem_filter.mpr ⟨hs', by simpa using hv⟩, rfl⟩)

/-- **C13.** Concatenating an entity set with itself changes no rows. -/
theorem C13_idempotent_partial (lib : Lib) (a c : ESet) (ha : Dicts a) (hua : IndexUnique a) (h : concat lib a a = (c, none))
    (x : Entity) (hx : x ∈ a.entities) (hm : x.created ≠ some x.index) : ∃ z, c.get? x.id = some z ∧ z.df.rows.Perm x.df.rows := by
  obtain ⟨y, z, hy, hz, _, _, _, z4, _⟩ := C13_concat_partial lib a a c ha hua hua ha h x hx hm
  rw [get?_of_mem ha.ids hx] at hy
  cases hy
  refine ⟨z, hz, ?_⟩
  have : (x.df.rows.filter fun s => decide (s x.index ∉ x.df.rows.map fun r => r x.index)) = [] := by
    rw [List.filter_eq_nil_iff]
    intro s hs hc
    simp only [decide_eq_true_eq] at hc
    exact hc (List.mem_map_of_mem hs)
  rw [this, List.append_nil] at z4
  exact z4

/-- **C13.** Different entity sets are not concatenated, and nothing changes. -/
theorem C13_refused (lib : Lib) (a b : ESet) (ha : Dicts a) (hb : Dicts b) (h : ¬ SameEntities a b ∨ a.rels ≠ b.rels) :
    concat lib a b = (a, some .assertionError) := by
  unfold concat
  rw [if_neg]
  simp only [Bool.and_eq_true, esEq_shallow ha hb, beq_iff_eq]
  rintro ⟨⟨h1, _⟩, h2⟩
  rcases h with h | h
  · exact h h1
  · exact h h2

namespace EsExample
/-- The entity set of the example with other customers. -/
def es3' : ESet := es3.modify "custs" fun x => { x with df := { x.df with
  rows := [Row.ofList [("id", .num 9), ("age", .num 20)], Row.ofList [("id", .num 7), ("age", .num 51)]] } }
/-- Two entity sets whose index was made. -/
def made (age : Int) : ESet := (entityFromDataframe lib ESet.empty
  { id := "custs", df := { cols := ["age"], rows := [Row.ofList [("age", .num age)]], dtype := fun _ => "int64" }, index := some "row", makeIndex := true }).1
end EsExample

/-- The example: customer 7 is the one of the first entity set, customer 9 is added. -/
example : (concat EsExample.lib EsExample.es3 EsExample.es3').2 = none ∧
    ((concat EsExample.lib EsExample.es3 EsExample.es3').1.get? "custs").map (fun z => z.df.rows.map fun r => (r "id", r "age")) =
      some [(.num 7, .num 50), (.num 8, .num 60), (.num 9, .num 20)] := by decide

/-- **C13 is violated** for entities whose index was made: their rows are all numbered from 0, rows with the same number are
kept unless they agree in all columns, and `concat` fails. -/
theorem C13_made_index_violated :
    esEq false (EsExample.made 1) (EsExample.made 2) = true ∧ (concat EsExample.lib (EsExample.made 1) (EsExample.made 2)).2 = some .assertionError := by
  decide

end FT
