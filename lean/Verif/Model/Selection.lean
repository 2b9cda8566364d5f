import Verif.Model.Table
/-!
# Feature selection

Models `selection/selection.py`. A feature matrix is a `Table`; its column names are taken to be distinct (with repeated names
`feature_matrix[c]` is no column). Cells are compared as the model's values. Shares are exact fractions where the code has
floating point numbers.
-/
namespace FT

/-- What selection needs of a feature: `get_name()` and `get_feature_names()`, whose length is `number_output_features`. -/
structure SelFeat where
  name : String
  names : List String
deriving DecidableEq

/-- A feature in the result: as given, or an output of it (`f[i]`). -/
inductive Picked where
  | whole (f : SelFeat)
  | slice (f : SelFeat) (i : Nat)
deriving DecidableEq

/-- `feature_matrix[c]`. -/
def Table.column (t : Table) (c : String) : List Val := t.rows.map fun r => r c

/-- `nunique(dropna=False)`. -/
def nuniqueAll (l : List Val) : Nat := (dedup l).length

/-- `nunique(dropna=True)`. -/
def nuniqueSome (l : List Val) : Nat := (dedup (dropna l)).length

/-- `keep` (`selection.py` 15-17). -/
def lowInformationKeep (t : Table) : List String :=
  t.cols.filter fun c => decide (nuniqueAll (t.column c) > 1) && decide ((dropna (t.column c)).length > 0)

/-- `remove_low_information_features` (`selection.py` 4-23). -/
def removeLowInformation (t : Table) (features : List SelFeat) : Table × List SelFeat :=
  let keep := lowInformationKeep t
  ({ t with cols := keep }, features.filter fun f => keep.contains f.name)

/-- `[f[i] for i in range(…) if f[i].get_name() in new_feature_names]` (`selection.py` 161-162). -/
def keptSlices (keep : List String) (f : SelFeat) : List Picked :=
  ((List.range f.names.length).filter fun i => (f.names[i]?).any fun n => keep.contains n).map fun i => .slice f i

/-- One round of the loop of `_apply_feature_selection` (`selection.py` 158-169). -/
def applyOne (keep : List String) (f : SelFeat) : List Picked :=
  if f.names.length > 1 then
    if (keptSlices keep f).length = f.names.length then [.whole f] else keptSlices keep f
  else if keep.contains f.name then [.whole f] else []

/-- `_apply_feature_selection` (`selection.py` 152-172). -/
def applySelection (t : Table) (features : List SelFeat) (keep : List String) : Table × List Picked :=
  ({ t with cols := keep }, features.flatMap (applyOne keep))

/-- `feature_matrix.isnull().mean()`: without rows it is NaN, which is less than nothing. -/
def nullShare (l : List Val) : Option Rat :=
  if l.isEmpty then none else some ((l.filter fun v => v = .null).length / l.length)

/-- The test on the share (`selection.py` 47-52). -/
def fewNulls (threshold : Rat) (share : Option Rat) : Bool :=
  match share with
  | none => false
  | some s => if threshold = 0 then decide (s ≤ threshold) else decide (s < threshold)

/-- `remove_highly_null_features` (`selection.py` 26-54). -/
def removeHighlyNull (t : Table) (features : List SelFeat) (threshold : Rat) : Except PyErr (Table × List Picked) :=
  if threshold < 0 ∨ threshold > 1 then .error .valueError
  else .ok (applySelection t features (t.cols.filter fun c => fewNulls threshold (nullShare (t.column c))))

/-- `remove_single_value_features` (`selection.py` 57-78). -/
def removeSingleValue (t : Table) (features : List SelFeat) (countNan : Bool) : Table × List Picked :=
  applySelection t features (t.cols.filter fun c =>
    decide ((if countNan then nuniqueAll (t.column c) else nuniqueSome (t.column c)) > 1))

/-- What pandas decides: the types of columns and `Series.corr`, which may be NaN. -/
structure Stats where
  numeric : String → Bool
  corr : List Val → List Val → Option Rat

/-- `abs(a.corr(b)) >= threshold`. -/
def highCorr (S : Stats) (t : Table) (threshold : Rat) (c d : String) : Bool :=
  match S.corr (t.column c) (t.column d) with
  | none => false
  | some x => decide ((if x < 0 then -x else x) ≥ threshold)

/-- The loops of `remove_highly_correlated_features` (`selection.py` 131-145) from the last column to the second: `cols` is in
reverse, so that what follows a column are those of lower index, from the greatest to 0. -/
def droppedFrom (S : Stats) (t : Table) (threshold : Rat) : List String → List String
  | [] => []
  | c :: before => (if before.any fun d => highCorr S t threshold c d then [c] else []) ++ droppedFrom S t threshold before

/-- `remove_highly_correlated_features` (`selection.py` 81-149). -/
def removeHighlyCorrelated (S : Stats) (t : Table) (features : List SelFeat) (threshold : Rat) (check : Option (List String)) (keepThese : List String) :
    Except PyErr (Table × List Picked) :=
  if threshold < 0 ∨ threshold > 1 then .error .valueError
  else if !((check.getD t.cols).all fun c => t.cols.contains c) then .error .assertionError
  else
    let dropped := droppedFrom S t threshold ((check.getD t.cols).filter S.numeric).reverse
    .ok (applySelection t features (t.cols.filter fun c => keepThese.contains c || !dropped.contains c))

end FT
