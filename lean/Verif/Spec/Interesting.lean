import Verif.Model.Interesting
import Verif.Spec.Aggregate
/-!
# Words of the property about interesting values
-/
namespace FT.Spec

/-- The share of a value among the cells that are not missing. -/
def share (s : List Val) (v : Val) : Rat := (s.count v : Rat) / ((s.filter fun w => w ≠ .null).length : Rat)

/-- The interesting values of a column: up to `max` of its most common values; when it has 25 or more different values, only
those with a share between 5% and 95%. -/
def InterestingValues (max : Nat) (s out : List Val) : Prop :=
  MostCommon s out ∧ out.length ≤ max ∧
  ∀ n, NumDistinct s n →
    (n < 25 → out.length < max → ∀ v ∈ s, v ≠ .null → v ∈ out) ∧
    (25 ≤ n → (∀ v ∈ out, 1 / 20 < share s v ∧ share s v < 19 / 20) ∧
      (out.length < max → ∀ v ∈ s, v ≠ .null → 1 / 20 < share s v → share s v < 19 / 20 → v ∈ out))

/-- The variable belongs to a relationship. -/
def Linked (rels : List Relationship) (e v : String) : Prop :=
  ∃ r ∈ rels, (r.childE = e ∧ r.childV = v) ∨ (r.parentE = e ∧ r.parentV = v)

/-- What is stored for a variable. -/
def InterestingFor (c : Counting) (rels : List Relationship) (max : Nat) (x : Entity) (v : Var) (out : List Val) : Prop :=
  (c.discrete v.type = false → out = v.interesting) ∧
  (c.discrete v.type = true → Linked rels x.id v.id → out = []) ∧
  (c.discrete v.type = true → ¬Linked rels x.id v.id → InterestingValues max (x.df.rows.map fun r => r v.id) out)

end FT.Spec
