import Verif.Model.Table
/-!
# Aggregations calculated in one pass

Models how `_calculate_agg_features` (`computational_backends/feature_set_calculator.py` 632-722, pandas) passes the functions of
several features to one `groupby.agg` and finds their columns in the result. What is calculated is described by the function and the
columns it is called with. pandas is as in versions 0.25 to 1.5: functions with one name are not refused.
-/
namespace FT

/-- What `get_function` returns: `pd.Series.count`, or another function object with its `id`. -/
inductive AggFun where
  | count
  | object (id : Nat)
deriving DecidableEq

/-- What `_calculate_agg_features` looks at in a feature. -/
structure AggReq where
  name : String
  function : AggFun
  bases : List String
  whereName : Option String
  usesCalcTime : Bool
  outputs : Nat
deriving DecidableEq

/-- `_can_agg` (`feature_set_calculator.py` 763-773) -/
def canAggReq (f : AggReq) : Bool :=
  let bases := match f.whereName with
    | none => f.bases
    | some w => f.bases.filter fun b => b ≠ w
  if f.usesCalcTime then false else bases.length == 1 && f.outputs == 1

/-- What is passed to `agg`: the text `"count"`, a function object, or a `partial` around one, an object with an `id` of its
own. -/
inductive Passed where
  | count
  | object (id : Nat) (calls : Nat)
deriving DecidableEq

/-- The function that is calculated in the end. -/
def Passed.calls : Passed → AggFun
  | .count => .count
  | .object _ n => .object n

/-- `funcname` (`feature_set_calculator.py` 656-666) -/
def Passed.funcname : Passed → String
  | .count => "count"
  | .object id _ => toString id

/-- `u"{}-{}".format(variable_id, funcname)` (`feature_set_calculator.py` 662, 677) and `"-".join(x)` (713) -/
def aggKey (variableId funcname : String) : String := variableId ++ "-" ++ funcname

/-- `to_agg`, `agg_rename` and `to_apply` (`feature_set_calculator.py` 632-634), and the next `id` of a new object: objects in use have
smaller ones. -/
structure AggState where
  toAgg : List (String × List Passed)
  rename : List (String × String)
  toApply : List AggReq
  next : Nat

/-- `to_agg[variable_id].append(func)`, the list being created if there is none (`feature_set_calculator.py` 641-642, 675). -/
def appendAgg (v : String) (p : Passed) : List (String × List Passed) → List (String × List Passed)
  | [] => [(v, [p])]
  | (w, ps) :: rest => if w = v then (w, ps ++ [p]) :: rest else (w, ps) :: appendAgg v p rest

/-- `agg_rename[key] = name` (`feature_set_calculator.py` 677) -/
def renameSet (k n : String) : List (String × String) → List (String × String)
  | [] => [(k, n)]
  | (k', n') :: rest => if k' = k then (k, n) :: rest else (k', n') :: renameSet k n rest

/-- The function that is passed and the next `id` (`feature_set_calculator.py` 648-668): a function that was passed for this variable
already is wrapped. -/
def passFunction (s : AggState) (v : String) : AggFun → Passed × Nat
  | .count => (.count, s.next)
  | .object id =>
    if (s.rename.lookup (aggKey v (toString id))).isSome then (.object s.next id, s.next + 1) else (.object id id, s.next)

/-- One turn of the loop (`feature_set_calculator.py` 637-680). -/
def aggStep (s : AggState) (f : AggReq) : AggState :=
  if canAggReq f then
    let v := f.bases.headD ""
    let (p, next) := passFunction s v f.function
    { s with toAgg := appendAgg v p s.toAgg, rename := renameSet (aggKey v p.funcname) f.name s.rename, next := next }
  else { s with toApply := s.toApply ++ [f] }

/-- A column of the result: its name, the function and the columns it was called with. -/
structure AggColumn where
  name : String
  function : AggFun
  columns : List String
deriving DecidableEq

/-- The columns of `groupby.agg(to_agg)` (`feature_set_calculator.py` 708-711): variable and function. -/
def aggColumns (toAgg : List (String × List Passed)) : List (String × Passed) :=
  toAgg.flatMap fun x => x.2.map fun p => (x.1, p)

/-- `to_merge.columns = [agg_rename["-".join(x)] for x in to_merge.columns]` (`feature_set_calculator.py` 713) -/
def renameColumns (rename : List (String × String)) : List (String × Passed) → Except PyErr (List AggColumn)
  | [] => .ok []
  | (v, p) :: rest => match rename.lookup (aggKey v p.funcname) with
    | none => .error .keyError
    | some n => match renameColumns rename rest with
      | .error e => .error e
      | .ok cs => .ok (⟨n, p.calls, [v]⟩ :: cs)

/-- All columns the pass adds: those of `agg_wrapper` (`feature_set_calculator.py` 684-694, 776-797), which calls each function with
all its columns, and `to_merge[list(agg_rename.values())]` (714). -/
def aggPass (fresh : Nat) (fs : List AggReq) : Except PyErr (List AggColumn) :=
  let s := fs.foldl aggStep ⟨[], [], [], fresh⟩
  match renameColumns s.rename (aggColumns s.toAgg) with
  | .error e => .error e
  | .ok cs => .ok (s.toApply.map (fun f => ⟨f.name, f.function, f.bases⟩) ++
      s.rename.flatMap fun kn => cs.filter fun c => c.name = kn.2)

end FT
