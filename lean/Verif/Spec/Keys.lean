import Verif.Model.Keys
/-! Specification of what lists, sets and dictionaries should do with objects. -/
namespace FT.Spec
open FT

/-- Objects at one place are one object. -/
def OneHeap {α : Type} (l : List (Ref α)) : Prop := ∀ a ∈ l, ∀ b ∈ l, a.addr = b.addr → a.val = b.val

/-- Asking whether something is in a collection of objects with `P` gives an answer: whether there is the same thing in it. -/
def Answers {α : Type} (P : α → Prop) (same : α → α → Prop) (has : List (Ref α) → Ref α → Except PyErr Bool) : Prop :=
  ∀ l x, OneHeap (x :: l) → (∀ m ∈ x :: l, P m.val) →
    (has l x = .ok true ∧ ∃ m ∈ l, same m.val x.val) ∨ (has l x = .ok false ∧ ¬∃ m ∈ l, same m.val x.val)

/-- A set made of objects with `P` has each thing once. -/
def HasOnce {α : Type} (P : α → Prop) (same : α → α → Prop) (set : List (Ref α) → Except PyErr (List (Ref α))) : Prop :=
  ∀ l, OneHeap l → (∀ m ∈ l, P m.val) →
    ∃ s, set l = .ok s ∧ (∀ m ∈ s, m ∈ l) ∧ (∀ m ∈ l, ∃ m' ∈ s, same m'.val m.val) ∧ s.Pairwise fun a b => ¬same a.val b.val

/-- Entities with the same indexes and variables; if there are any variables, the ids are the same. -/
def SameSchemaOf (a b : BuildEnt) : Prop :=
  a.index = b.index ∧ a.timeIndex = b.timeIndex ∧ a.secondary = b.secondary ∧ a.vars.length = b.vars.length ∧
    (∀ v, v ∈ a.vars ↔ v ∈ b.vars) ∧ (a.vars ≠ [] → a.id = b.id)

/-- No class is a subclass of one of its proper subclasses; each is one of itself. -/
def ClassOrder (sub : String → String → Bool) : Prop := (∀ c, sub c c = true) ∧ ∀ c d, sub c d = true → sub d c = true → c = d

/-- A feature of the entity `e` that `==` can be applied to: it has one output. -/
def OneOf (sub : String → String → Bool) (e : BuildEnt) (f : BFeat) : Prop := f.ent = e ∧ f.outputs ≤ 1 ∧ sub f.vtype "Variable" = true

end FT.Spec
