import Verif.Model.MakePrim
/-! # Words of the property about primitives made from functions -/
namespace FT.Spec

/-- What a Python function receives: the first parameters by position, each other one by keyword or else its default. `kw` are the
keywords with the arguments, those in front winning. Nothing may be given twice, be unknown or be missing. -/
def Receives (params : List (String × Option Val)) (pos : List PyArg) (kw : List (String × PyArg)) (args : List PyArg) : Prop :=
  args.length = params.length ∧ pos.length ≤ params.length ∧
  (∀ k v, (k, v) ∈ kw → ∃ (i : Nat) (d : Option Val), pos.length ≤ i ∧ params[i]? = some (k, d)) ∧
  ∀ (i : Nat) n d v, params[i]? = some (n, d) → args[i]? = some v →
    if i < pos.length then pos[i]? = some v
    else kw.lookup n = some v ∨ (kw.lookup n = none ∧ d.map PyArg.scalar = some v)

/-- No parameter that takes a column has a default. -/
def ColumnsRequired (f : PyFun) (columns : Nat) : Prop :=
  ∀ (i : Nat) n d, i < columns → f.params[i]? = some (n, d) → d = none

/-- Keyword arguments that are plain values. -/
def plainKw (kw : List (String × Val)) : List (String × PyArg) := kw.map fun x => (x.1, .scalar x.2)

end FT.Spec
