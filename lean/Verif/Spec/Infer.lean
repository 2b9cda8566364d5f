import Verif.Model.Infer
/-!
# Words of the property about type inference
-/
namespace FT.Spec

/-- `sample n` picks `n` rows, in any order. -/
def Picks (sample : Nat → List Val → List Val) : Prop :=
  ∀ n l, n ≤ l.length → (sample n l).length = n ∧ ∃ rest, (sample n l ++ rest).Perm l

/-- The calls have the same roles for columns; they may sample differently. -/
def SameRoles (a b : InferArgs) : Prop :=
  a.given = b.given ∧ a.links = b.links ∧ a.timeIndex = b.timeIndex ∧ a.secondary = b.secondary

/-- The column tells its type: it has rows, or a dtype with a type of its own, or a role. -/
def TellsType (a : InferArgs) (c : InferCol) : Prop :=
  c.cells ≠ [] ∨ c.kind ≠ .other ∨ c.isDatetime = true ∨ c.name ∈ a.links ∨ a.timeIndex = some c.name ∨ a.secondary[0]? = some c.name

/-- The strings of a column. -/
def texts (l : List Val) : List String := l.filterMap fun v => match v with | .str s => some s | _ => none

/-- The strings are long: more than 50 characters on average. -/
def LongTexts (l : List Val) : Prop := 50 * (texts l).length < ((texts l).map String.length).sum

/-- Few different values: `n` different ones, missing counted as one, are less than 5% of the rows. -/
def FewDifferent (l : List Val) : Prop := ∀ vs : List Val, vs.Nodup → (∀ v, v ∈ vs ↔ v ∈ l) → 20 * vs.length < l.length

/-- The documented choice of a type, for a column of at most 10000 rows. -/
inductive HasType (a : InferArgs) (c : InferCol) : String → Prop
  | timeDate : (a.timeIndex = some c.name ∨ a.secondary[0]? = some c.name) → c.isDatetime = true → HasType a c "datetime"
  | timeNum : (a.timeIndex = some c.name ∨ a.secondary[0]? = some c.name) → c.isDatetime = false → HasType a c "numeric"
  | link : ¬(a.timeIndex = some c.name ∨ a.secondary[0]? = some c.name) → c.name ∈ a.links → HasType a c "categorical"
  | plain (t : String) : ¬(a.timeIndex = some c.name ∨ a.secondary[0]? = some c.name) → c.name ∉ a.links →
      ((c.kind = .object ∧ (c.cells = [] ∧ t = "categorical" ∨ c.cells ≠ [] ∧ c.isDatetime = true ∧ t = "datetime" ∨
          c.cells ≠ [] ∧ c.isDatetime = false ∧ LongTexts c.cells ∧ t = "natural_language" ∨
          c.cells ≠ [] ∧ c.isDatetime = false ∧ ¬LongTexts c.cells ∧ t = "categorical")) ∨
        (c.kind = .bool ∧ t = "boolean") ∨ (c.kind = .category ∧ t = "categorical") ∨ (c.kind = .numeric ∧ t = "numeric") ∨
        (c.kind = .other ∧ (c.isDatetime = true ∧ t = "datetime" ∨
          c.isDatetime = false ∧ c.cells ≠ [] ∧ FewDifferent c.cells ∧ t = "categorical" ∨
          c.isDatetime = false ∧ c.cells ≠ [] ∧ ¬FewDifferent c.cells ∧ t = "numeric"))) → HasType a c t

end FT.Spec
