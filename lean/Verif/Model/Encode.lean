import Verif.Model.Table
/-!
# One-hot encoding

Models `encode_features` of `synthesis/encode_features.py`.
-/
namespace FT

/-- What encoding needs of a feature: `get_name()`, `get_feature_names()`, and whether its type is a subclass of `Discrete`. -/
structure EFeat where
  name : String
  names : List String
  discrete : Bool
deriving DecidableEq

/-- A feature in the result: as given, `f == label`, or `f.isin(labels).NOT()`. -/
inductive EOut where
  | keep (f : EFeat)
  | equals (f : EFeat) (label : Val)
  | unknown (f : EFeat) (labels : List Val)
deriving DecidableEq

/-- `top_n`. -/
inductive TopN where
  | all (n : Int)
  | per (d : List (String × Int))
deriving DecidableEq

/-- The options. `eqName` is the name of the feature `f == label` (`binary_transform.py` 306-307); `le` compares labels as
`sort_values` does, taken to be possible for the labels of one column. -/
structure EncOpts where
  topN : TopN
  includeUnknown : Bool
  toEncode : Option (List String)
  dropFirst : Bool
  eqName : String → Val → String
  le : Val → Val → Bool

/-- `value_counts()` sorted by count, then label, both descending (`encode_features.py` 124-134); missing values are not
counted. -/
def rankedLabels (le : Val → Val → Bool) (col : List Val) : List Val :=
  isort (fun a b => decide (col.count b < col.count a) || (decide (col.count b = col.count a) && le b a)) (dedup (dropna col))

/-- `head(n)`: a negative number counts from the end. -/
def pyHead {α : Type} (n : Int) (l : List α) : List α :=
  if 0 ≤ n then l.take n.toNat else l.take (l.length - (-n).toNat)

/-- The number of labels asked for (`encode_features.py` 135-140): `min` of a number and a dict is a `TypeError`. -/
def selectN (o : EncOpts) (name : String) (k : Nat) : Except PyErr Int :=
  if o.dropFirst then
    match o.topN with
    | .all n => .ok (max (min (k : Int) n - 1) 1)
    | .per _ => .error .typeError
  else match o.topN with
    | .all n => .ok n
    | .per d => .ok ((d.lookup name).getD 10)

/-- `X[name] = column`, the column being computed row by row. -/
def Table.assign (t : Table) (name : String) (v : Row → Val) : Table :=
  ⟨if t.cols.contains name then t.cols else t.cols ++ [name], t.rows.map fun r c => if c = name then v r else r c⟩

/-- `X.drop(name, axis=1)`; the cells no longer read. -/
def Table.dropCol (t : Table) (name : String) : Table := ⟨t.cols.filter fun c => c != name, t.rows⟩

/-- The state of the loop: `X`, `new_feature_list` and `new_columns`. -/
structure EncState where
  X : Table
  outs : List EOut
  newCols : List String

/-- The loop over the labels (`encode_features.py` 142-148). -/
def addLabels (o : EncOpts) (f : EFeat) : List Val → EncState → EncState
  | [], s => s
  | l :: ls, s => addLabels o f ls
    ⟨s.X.assign (o.eqName f.name l) fun r => .bool (decide (r f.name = l)), s.outs ++ [.equals f l], s.newCols ++ [o.eqName f.name l]⟩

/-- `include_unknown` (`encode_features.py` 150-156). -/
def addUnknown (o : EncOpts) (f : EFeat) (labels : List Val) (s : EncState) : EncState :=
  if o.includeUnknown then
    ⟨s.X.assign (f.name ++ " is unknown") fun r => .bool (!labels.contains (r f.name)), s.outs ++ [.unknown f labels],
      s.newCols ++ [f.name ++ " is unknown"]⟩
  else s

/-- Is the feature left as it is (`encode_features.py` 109-122)? -/
def leftAsIs (o : EncOpts) (f : EFeat) : Bool :=
  decide (f.names.length > 1) || !f.discrete || (match o.toEncode with | some l => !l.contains f.name | none => false)

/-- One round of the loop (`encode_features.py` 106-158). -/
def encodeOne (o : EncOpts) (s : EncState) (f : EFeat) : Except PyErr EncState :=
  if leftAsIs o f then .ok ⟨s.X, s.outs ++ [.keep f], s.newCols ++ f.names⟩
  else if !s.X.cols.contains f.name then .error .keyError
  else
    let ranked := rankedLabels o.le (s.X.rows.map fun r => r f.name)
    match selectN o f.name ranked.length with
    | .error e => .error e
    | .ok n =>
      let s' := addUnknown o f (pyHead n ranked) (addLabels o f (pyHead n ranked) s)
      .ok { s' with X := s'.X.dropCol f.name }

/-- The loop. -/
def encodeLoop (o : EncOpts) : EncState → List EFeat → Except PyErr EncState
  | s, [] => .ok s
  | s, f :: fs => match encodeOne o s f with
    | .error e => .error e
    | .ok s' => encodeLoop o s' fs

/-- `encode_features` (`encode_features.py` 13-175). The result and what becomes of the frame that was given. `to_numeric` does not
change Boolean columns. -/
def encodeFeatures (o : EncOpts) (inplace : Bool) (t : Table) (features : List EFeat) : Except PyErr (Table × List EOut × Table) :=
  if !(features.all fun f => f.names.all fun n => t.cols.contains n) then .error .assertionError
  else match encodeLoop o ⟨t, [], []⟩ features with
    | .error e => .error e
    | .ok s => match s.X.select (s.newCols ++ t.cols.filter fun c => !(features.flatMap EFeat.names).contains c) with
      | .error e => .error e
      | .ok X => .ok (X, s.outs, if inplace then s.X else t)

end FT
