import Verif.Model.Table
/-!
# Type inference

Models `infer_variable_types` of `utils/entity_utils.py`, for pandas frames.  Types are given by their type strings.
Averages and shares are exact fractions where the code has floating point.
-/
namespace FT

/-- The dtypes the function tells apart. `other` is any that is neither object, bool, categorical nor numeric (times,
time differences, strings, …). -/
inductive ColKind | object | bool | category | numeric | other
deriving DecidableEq, Repr

/-- A column: name, kind of dtype, the result of `col_is_datetime` (`entity_utils.py` 202-223), and cells. -/
structure InferCol where
  name : String
  kind : ColKind
  isDatetime : Bool
  cells : List Val
deriving DecidableEq

/-- The other arguments: names in `variable_types`, `link_vars`, `time_index`, the keys of `secondary_time_index`; and the
random choice `column.sample(n)` makes. -/
structure InferArgs where
  given : List String
  links : List String
  timeIndex : Option String
  secondary : List String
  sample : Nat → List Val → List Val

/-- `sample.str.len()`: the lengths of strings, NaN for other cells. -/
def strLens (l : List Val) : List Nat := l.filterMap fun v => match v with | .str s => some s.length | _ => none

/-- `sample.str.len().mean() > 50` (`entity_utils.py` 66-71). The mean of nothing is NaN; cells without `str` raise an
`AttributeError`, which is caught and has the same effect. -/
def longText (l : List Val) : Bool := !(strLens l).isEmpty && decide (((strLens l).sum : Rat) / ((strLens l).length : Rat) > 50)

/-- `vids_to_assume_datetime` (`entity_utils.py` 30-32). -/
def assumedDatetime (a : InferArgs) : List String := a.timeIndex.toList ++ a.secondary.take 1

/-- One round of the loop for a column that has no given type (`entity_utils.py` 45-96); `prev` is `inferred_type` before it. -/
def inferStep (a : InferArgs) (prev : String) (c : InferCol) : String :=
  if (assumedDatetime a).contains c.name then (if c.isDatetime then "datetime" else "numeric")
  else if a.links.contains c.name then "categorical"
  else match c.kind with
    | .object =>
      if c.cells.isEmpty then "categorical"
      else if c.isDatetime then "datetime"
      else if longText (a.sample (min 10000 c.cells.length) c.cells) then "natural_language" else "categorical"
    | .bool => "boolean"
    | .category => "categorical"
    | .numeric => "numeric"
    | .other =>
      if c.isDatetime then "datetime"
      else if !c.cells.isEmpty then
        let sample := a.sample (min 10000 c.cells.length) c.cells
        if ((dedup sample).length : Rat) / (sample.length : Rat) < 1 / 20 then "categorical" else "numeric"
      else prev

/-- The loop (`entity_utils.py` 33-96). -/
def inferLoop (a : InferArgs) : String → List InferCol → List (String × String)
  | _, [] => []
  | prev, c :: cs =>
    if a.given.contains c.name then inferLoop a prev cs
    else (c.name, inferStep a prev c) :: inferLoop a (inferStep a prev c) cs

/-- `infer_variable_types` (`entity_utils.py` 15-98). -/
def inferVariableTypes (a : InferArgs) (cols : List InferCol) : List (String × String) := inferLoop a "unknown" cols

end FT
