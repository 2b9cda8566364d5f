import Verif.Model.Encode
/-! Specification of one-hot encoding. -/
namespace FT.Spec
open FT

/-- All values of the column, the most frequent first, and among equally frequent ones the greatest first. -/
def RankedValues (le : Val → Val → Bool) (col : List Val) (all : List Val) : Prop :=
  all.Nodup ∧ (∀ x, x ∈ all ↔ x ∈ col ∧ x ≠ .null) ∧
    all.Pairwise fun a b => col.count b < col.count a ∨ col.count b = col.count a ∧ le b a = true

/-- `top_n` for a feature. -/
def limitFor (o : EncOpts) (f : EFeat) : Int := match o.topN with | .all n => n | .per d => (d.lookup f.name).getD 10

/-- The values that get a column of their own. -/
def LabelsOf (o : EncOpts) (t : Table) (f : EFeat) (labels : List Val) : Prop :=
  ∃ all, RankedValues o.le (t.rows.map fun r => r f.name) all ∧
    labels = all.take (if o.dropFirst then max (min all.length (limitFor o f).toNat - 1) 1 else (limitFor o f).toNat)

/-- The feature is to be encoded. -/
def Encodes (o : EncOpts) (f : EFeat) : Prop := f.discrete = true ∧ f.names.length ≤ 1 ∧ ∀ l, o.toEncode = some l → f.name ∈ l

/-- The features made of a feature, given the values. -/
def Expansion (o : EncOpts) (t : Table) (f : EFeat) (outs : List EOut) : Prop :=
  (¬Encodes o f ∧ outs = [.keep f]) ∨
    (Encodes o f ∧ ∃ labels, LabelsOf o t f labels ∧ outs = labels.map (.equals f) ++ if o.includeUnknown then [.unknown f labels] else [])

/-- The columns of a feature of the result. -/
def outNames (o : EncOpts) : EOut → List String
  | .keep f => f.names
  | .equals f l => [o.eqName f.name l]
  | .unknown f _ => [f.name ++ " is unknown"]

/-- The cells of a feature of the result, in the row that had been `r`. -/
def RightCells (o : EncOpts) (r r' : Row) : EOut → Prop
  | .keep f => ∀ c ∈ f.names, r' c = r c
  | .equals f l => r' (o.eqName f.name l) = .bool (decide (r f.name = l))
  | .unknown f labels => r' (f.name ++ " is unknown") = .bool (decide (r f.name ∉ labels))

/-- The features made of all the features, one after the other. -/
inductive Expanded (o : EncOpts) (t : Table) : List EFeat → List EOut → Prop
  | nil : Expanded o t [] []
  | cons {f fs os os'} : Expansion o t f os → Expanded o t fs os' → Expanded o t (f :: fs) (os ++ os')

/-- The value occurs for the feature. -/
def Occurs (t : Table) (f : EFeat) (l : Val) : Prop := l ≠ .null ∧ ∃ r ∈ t.rows, r f.name = l

/-- The new columns have names of their own. -/
def NewNamesApart (o : EncOpts) (t : Table) (features : List EFeat) : Prop :=
  (∀ f ∈ features, f.name ++ " is unknown" ∉ t.cols) ∧ (∀ f ∈ features, ∀ l, Occurs t f l → o.eqName f.name l ∉ t.cols) ∧
  (∀ f ∈ features, ∀ g ∈ features, ∀ l m, Occurs t f l → Occurs t g m → o.eqName f.name l = o.eqName g.name m → f = g ∧ l = m) ∧
  ∀ f ∈ features, ∀ g ∈ features, ∀ l, Occurs t f l → o.eqName f.name l ≠ g.name ++ " is unknown"

/-- The features are those of the matrix: each has its columns there, no two have a column in common, and a feature with one column
has its name. -/
def OfMatrix (t : Table) (features : List EFeat) : Prop :=
  (∀ f ∈ features, (∀ n ∈ f.names, n ∈ t.cols) ∧ f.names ≠ [] ∧ (f.names.length ≤ 1 → f.names = [f.name])) ∧
    (features.flatMap EFeat.names).Nodup

end FT.Spec
