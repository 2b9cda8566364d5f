/-!
# Words of the property about cumulative primitives
-/
namespace FT.Spec

/-- The values of a series up to and including position `i`, missing ones left out. -/
def upTo (values : List (Option Rat)) (i : Nat) : List Rat := (values.take (i + 1)).filterMap id

/-- `out` is the series that is missing where `values` is missing and otherwise satisfies `P` of the values seen so far. -/
def Running (P : Nat → List Rat → Rat → Prop) (values out : List (Option Rat)) : Prop :=
  out.length = values.length ∧
  ∀ i : Nat, (values[i]? = some none → out[i]? = some none) ∧
    ∀ x : Rat, values[i]? = some (some x) → ∃ y, out[i]? = some (some y) ∧ P i (upTo values i) y

/-- `m` is a smallest of the numbers. -/
def Smallest (l : List Rat) (m : Rat) : Prop := m ∈ l ∧ ∀ x ∈ l, m ≤ x

/-- `m` is a largest of the numbers. -/
def Largest (l : List Rat) (m : Rat) : Prop := m ∈ l ∧ ∀ x ∈ l, x ≤ m

end FT.Spec
