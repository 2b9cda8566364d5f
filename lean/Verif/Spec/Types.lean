import Verif.Spec.Dfs
/-! Specification of the types of features. -/
namespace FT.Spec
open FT

/-- What is left of a type when something is calculated: the result is no longer a key or the time index. -/
inductive Calculated : String → String → Prop
  | time : Calculated "DatetimeTimeIndex" "Datetime"
  | number : Calculated "NumericTimeIndex" "Numeric"
  | index : Calculated "Index" "Categorical"
  | id : Calculated "Id" "Categorical"
  | other {t : String} : t ≠ "DatetimeTimeIndex" → t ≠ "NumericTimeIndex" → t ≠ "Index" → t ≠ "Id" → Calculated t t

/-- The type of a result of the primitive `p` whose first input has the type `b`. -/
def ResultType (p : Prim) (b t : String) : Prop := p.ret = some t ∨ p.ret = none ∧ Calculated b t

/-- The type of a feature: that of the column, of the feature taken over, what the primitive declares, or what is left of the
type of the first input.  An output of a feature of several has the type of the feature; of a feature that is taken over, what is
left of it. -/
inductive OfType : DFeat → String → Prop
  | identity (v t e n : String) (bs ws : List DFeat) : OfType (.mk (.identity v t) e n bs ws) t
  | direct {r : Relationship} {e n t : String} {b : DFeat} {bs ws : List DFeat} : OfType b t → OfType (.mk (.direct r) e n (b :: bs) ws) t
  | agg {path : RelPath} {p : Prim} {e n s t : String} {b : DFeat} {bs ws : List DFeat} : OfType b s → ResultType p s t →
      OfType (.mk (.agg path p) e n (b :: bs) ws) t
  | trans {p : Prim} {e n s t : String} {b : DFeat} {bs ws : List DFeat} : OfType b s → ResultType p s t →
      OfType (.mk (.trans p) e n (b :: bs) ws) t
  | groupby {p : Prim} {e n s t : String} {b : DFeat} {bs ws : List DFeat} : OfType b s → ResultType p s t →
      OfType (.mk (.groupby p) e n (b :: bs) ws) t
  | slice {i : Nat} {e n t : String} {p : Prim} {b : DFeat} {bs ws : List DFeat} : MadeBy p b → p.ret = some t →
      OfType (.mk (.slice i) e n (b :: bs) ws) t
  | sliceCalculated {i : Nat} {e n s t : String} {b : DFeat} {bs ws : List DFeat} : (∀ p, MadeBy p b → p.ret = none) → OfType b s →
      Calculated s t → OfType (.mk (.slice i) e n (b :: bs) ws) t

end FT.Spec
