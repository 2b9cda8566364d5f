import Verif.Model.Relate
import Verif.Props.EntitySet
/-! # Properties of adding several relationships: C04 -/
namespace FT
open Spec

/-- The relationships `rels` followed by those of `rs` that are new. -/
inductive Spec.WithNew : List Relationship → List Relationship → List Relationship → Prop
  | nil {rels} : WithNew rels [] rels
  | known {rels r rs out} : r ∈ rels → WithNew rels rs out → WithNew rels (r :: rs) out
  | new {rels r rs out} : r ∉ rels → WithNew (rels ++ [r]) rs out → WithNew rels (r :: rs) out

theorem addEach_with (lib : Lib) : ∀ (rs : List Relationship) (es : ESet),
    ((addEach lib es rs).2 = none → WithNew es.rels rs (addEach lib es rs).1.rels) ∧
    ((addEach lib es rs).2 ≠ none → ∃ k, k < rs.length ∧ WithNew es.rels (rs.take k) (addEach lib es rs).1.rels)
  | [], es => ⟨fun _ => .nil, fun h => absurd rfl h⟩
  | r :: rs, es => by
    obtain ⟨h1, h2, h3⟩ := C04_add_relationship lib es r
    unfold addEach
    dsimp only
    split
    · rename_i e he
      refine ⟨fun h => (by cases h), fun _ => ⟨0, by simp, ?_⟩⟩
      rw [h2 (by rw [he]; simp)]
      exact .nil
    · rename_i he
      have h3 := h3 he
      obtain ⟨i1, i2⟩ := addEach_with lib rs (addRelationship lib es r).1
      have step : ∀ {l out}, WithNew (addRelationship lib es r).1.rels l out → WithNew es.rels (r :: l) out := by
        intro l out hw
        rcases h1 with h1 | ⟨h1, hn⟩
        · rw [h1] at hw h3
          exact .known h3 hw
        · rw [h1] at hw
          exact .new hn hw
      refine ⟨fun h => step (i1 h), fun h => ?_⟩
      obtain ⟨k, hk, hw⟩ := i2 h
      exact ⟨k + 1, by simpa using hk, step hw⟩

/-- C04. Adding several relationships without an error adds those that are new at the end, in their order, each once. If an error
is raised, those before some relationship have been added. -/
theorem C04_add_relationships (lib : Lib) (es : ESet) (rs : List Relationship) :
    ((addRelationships lib es rs).2 = none → rs ≠ [] ∧ WithNew es.rels rs (addRelationships lib es rs).1.rels) ∧
    ((addRelationships lib es rs).2 ≠ none → ∃ k, k ≤ rs.length ∧ WithNew es.rels (rs.take k) (addRelationships lib es rs).1.rels) := by
  unfold addRelationships
  obtain ⟨h1, h2⟩ := addEach_with lib rs es
  dsimp only
  split
  · exact ⟨fun h => (by cases h), fun _ => ⟨0, by simp, .nil⟩⟩
  · split
    · rename_i e he
      obtain ⟨k, hk, hw⟩ := h2 (by rw [he]; simp)
      exact ⟨fun h => (by cases h), fun _ => ⟨k, by omega, hw⟩⟩
    · rename_i he
      split
      · rename_i hr
        exact ⟨fun h => (by cases h), fun _ => ⟨rs.length, by omega, by rw [List.take_length]; exact h1 he⟩⟩
      · rename_i hr
        exact ⟨fun _ => ⟨fun e => hr (by rw [e]; rfl), h1 he⟩, fun h => absurd rfl h⟩

/-- Adding the relationships one after the other, without an error. -/
inductive Spec.OneByOne (lib : Lib) : ESet → List Relationship → ESet → Prop
  | nil {es} : OneByOne lib es [] es
  | cons {es r es1 rs out} : addRelationship lib es r = (es1, none) → OneByOne lib es1 rs out → OneByOne lib es (r :: rs) out

/-- Both variables are there, and that of the parent is its index. -/
def Spec.CanBeMade (es : ESet) (r : Relationship) : Prop :=
  ∃ p c, es.get? r.parentE = some p ∧ es.get? r.childE = some c ∧ (p.var? r.parentV).isSome ∧ (c.var? r.childV).isSome ∧ p.index = r.parentV

theorem make_iff (es : ESet) (r : Relationship) : makeRelationship es r = none ↔ CanBeMade es r := by
  unfold makeRelationship CanBeMade
  cases hp : es.get? r.parentE with
  | none => simp
  | some p =>
    cases hc : es.get? r.childE with
    | none => simp
    | some c =>
      simp only [Option.some.injEq, exists_eq_left', exists_and_left]
      cases p.var? r.parentV <;> cases c.var? r.childV <;> simp

theorem addEach_iff (lib : Lib) : ∀ (rs : List Relationship) (es es' : ESet), addEach lib es rs = (es', none) ↔ OneByOne lib es rs es'
  | [], es, es' => by
    unfold addEach
    constructor
    · intro h; cases h; exact .nil
    · intro h; cases h; rfl
  | r :: rs, es, es' => by
    unfold addEach
    dsimp only
    constructor
    · intro h
      split at h
      · cases h
      · rename_i he
        exact .cons (Prod.ext rfl he) ((addEach_iff lib rs _ _).mp h)
    · intro h
      cases h with
      | cons h1 h2 => rw [h1]; exact (addEach_iff lib rs _ _).mpr h2

/-- C04. Adding relationships, at least one, succeeds exactly if all of them can be made beforehand and they can be added one after
the other, and does the same. -/
theorem C04_add_relationships_iff (lib : Lib) (es es' : ESet) (rs : List Relationship) :
    addRelationships lib es rs = (es', none) ↔ rs ≠ [] ∧ (∀ r ∈ rs, CanBeMade es r) ∧ OneByOne lib es rs es' := by
  rw [← addEach_iff]
  unfold addRelationships
  dsimp only
  constructor
  · intro h
    split at h
    · cases h
    · rename_i hm
      split at h
      · cases h
      · rename_i he
        split at h
        · cases h
        · rename_i hr
          refine ⟨fun e => hr (by rw [e]; rfl), fun r hr' => (make_iff es r).mp (List.findSome?_eq_none_iff.mp hm r hr'), ?_⟩
          cases h
          exact Prod.ext rfl he
  · rintro ⟨hne, hm, ha⟩
    rw [show rs.findSome? (makeRelationship es) = none from List.findSome?_eq_none_iff.mpr fun r hr => (make_iff es r).mpr (hm r hr), ha]
    simp [hne]

/-- C04. If one of the relationships cannot be made, none is added. -/
theorem C04_one_cannot_be_made (lib : Lib) (es : ESet) (rs : List Relationship) (r : Relationship) (hr : r ∈ rs) (hm : ¬ CanBeMade es r) :
    (addRelationships lib es rs).1 = es ∧ (addRelationships lib es rs).2 ≠ none := by
  unfold addRelationships
  cases h : rs.findSome? (makeRelationship es) with
  | some e => exact ⟨rfl, by simp⟩
  | none => exact absurd ((make_iff es r).mp (List.findSome?_eq_none_iff.mp h r hr)) hm

/-- C04. Adding no relationships raises an `IndexError`, and changes nothing. -/
theorem C04_no_relationships_violated (lib : Lib) (es : ESet) : addRelationships lib es [] = (es, some .indexError) := rfl

open EsExample in
example : (addRelationships lib es2 [rel, rel]).2 = none ∧ (addRelationships lib es2 [rel, rel]).1.rels = [rel] ∧
    (addRelationships lib es2 [rel, ⟨"custs", "age", "orders", "cust"⟩]).2 = some .attributeError ∧
    (addRelationships lib es2 [rel, ⟨"custs", "age", "orders", "cust"⟩]).1.rels = [] := by decide +kernel

end FT
