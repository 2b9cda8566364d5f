import Verif.Model.Encode
import Verif.Model.Cfm
/-!
# The features that `encode_features` returns

Models what the new features of `synthesis/encode_features.py` (143-154) are: transform features of the feature that was encoded, built
by `==`, `isin`, `NOT` and `rename` (`feature_base.py` 218-226, 321-326, 98-110).
-/
namespace FT

/-- `EqualScalar(label)` (`binary_transform.py` 297-304): a missing value equals nothing (labels are not missing). -/
def equalScalarPrim (label : Val) : TransPrim :=
  { usesFull := false, usesCalcTime := false, fn := fun _ args => [(args.headD []).map fun v => .bool (decide (v = label))] }

/-- `IsIn(labels)` (`transform_primitive.py` 444-447). -/
def isInPrim (labels : List Val) : TransPrim :=
  { usesFull := false, usesCalcTime := false, fn := fun _ args => [(args.headD []).map fun v => .bool (labels.contains v)] }

/-- `Not` (`transform_primitive.py` 522-523); its inputs here are never missing. -/
def notPrim : TransPrim :=
  { usesFull := false, usesCalcTime := false
    fn := fun _ args => [(args.headD []).map fun v => match v with
      | .bool b => .bool (!b)
      | _ => .null] }

/-- What `encode_features` looks at in a feature. `discrete` says which are discrete. -/
def encodeView (discrete : Feat → Bool) (f : Feat) : EFeat := { name := f.name, names := f.names, discrete := discrete f }

/-- A transform feature of one feature, with the default value of transform primitives (`primitive_base.py` 21). -/
def transformOf (p : TransPrim) (name : String) (f : Feat) : Feat :=
  .mk { entity := f.entity, name := name, names := [name], dflt := .null, kind := .trans p } [f] []

/-- The returned features (`encode_features.py` 143-154). `read` gives the feature that was looked at; `isinName` is the name of
`f.isin(labels)` (`transform_primitive.py` 449-451). -/
def encodedFeature (eqName : String → Val → String) (isinName : String → List Val → String) (read : EFeat → Feat) : EOut → Feat
  | .keep f => read f
  | .equals f l => transformOf (equalScalarPrim l) (eqName f.name l) (read f)
  | .unknown f ls => transformOf notPrim (f.name ++ " is unknown") (transformOf (isInPrim ls) (isinName f.name ls) (read f))

/-- A feature matrix as the frame that `encode_features` is given: the columns, without the index. -/
def matrixFrame (m : Matrix) : Table := { cols := m.cols, rows := m.rows.map fun r => Row.ofList (m.cols.zip r.2.2) }

end FT
