import Verif.Model.Basic
import Verif.Model.Table
/-!
# Feature definitions as Deep Feature Synthesis sees them

Models the parts of `feature_base.py` and of the primitive classes that `deep_feature_synthesis.py` uses: kinds of
features, their names, types, outputs, dependencies and depth. Values are never computed here.
-/
namespace FT

/-- A primitive (`primitives/base/primitive_base.py` 12-57, `aggregation_primitive_base.py` 9-14): `cls` is its class,
`supers` every class it is an instance of, `inputs` the (first) list of input types, `alts` all of them, `argStr` is
`get_args_string()`. `transform` says it is an instance of `TransformPrimitive`. -/
structure Prim where
  cls : String
  supers : List String
  name : String
  argStr : String
  inputs : List String
  alts : List (List String)
  ret : Option String
  outputs : Nat
  commutative : Bool
  transform : Bool
  stackOnSelf : Option Bool
  stackOn : Option (List String)
  stackOnExclude : Option (List String)
  baseOf : Option (List String)
  baseOfExclude : Option (List String)
deriving DecidableEq

/-- `PrimitiveBase()`, the primitive of identity and direct features (`feature_base.py` 352, 400). -/
def Prim.plain : Prim :=
  { cls := "PrimitiveBase", supers := ["PrimitiveBase"], name := "", argStr := "", inputs := [], alts := [], ret := none, outputs := 1, commutative := false, transform := false, stackOnSelf := none, stackOn := none, stackOnExclude := none, baseOf := none, baseOfExclude := none }

/-- The feature classes of `feature_base.py` (identity 342, direct 384, aggregation 480, transform 640, group-by 684,
output slice 768). -/
inductive DKind where
  | identity (var vtype : String)
  | direct (rel : Relationship)
  | agg (path : RelPath) (prim : Prim)
  | trans (prim : Prim)
  | groupby (prim : Prim)
  | slice (n : Nat)
deriving DecidableEq

/-- A feature: kind, `entity_id`, `get_name()`, `base_features` and the `where` feature, if any. -/
inductive DFeat where
  | mk (kind : DKind) (entity name : String) (bases wh : List DFeat)

namespace DFeat

def kind : DFeat → DKind | mk k _ _ _ _ => k
/-- `entity_id` -/
def entity : DFeat → String | mk _ e _ _ _ => e
/-- `get_name()` (`feature_base.py` 81-84) -/
def name : DFeat → String | mk _ _ n _ _ => n
/-- `base_features` -/
def bases : DFeat → List DFeat | mk _ _ _ b _ => b
/-- `where` -/
def wh : DFeat → List DFeat | mk _ _ _ _ w => w

/-- `unique_name()` (`feature_base.py` 335-336). -/
def uname (f : DFeat) : String := f.entity ++ ": " ++ f.name

def isDirect (f : DFeat) : Bool := match f.kind with | .direct _ => true | _ => false
def isIdentity (f : DFeat) : Bool := match f.kind with | .identity _ _ => true | _ => false
def isAgg (f : DFeat) : Bool := match f.kind with | .agg _ _ => true | _ => false

/-- `primitive` (`feature_base.py` 49, 352, 400, 790): a slice has that of the feature it is taken from. -/
def prim : DFeat → Prim
  | mk (.agg _ p) _ _ _ _ => p
  | mk (.trans p) _ _ _ _ => p
  | mk (.groupby p) _ _ _ _ => p
  | mk (.slice _) _ _ (b :: _) _ => b.prim
  | _ => .plain

/-- `number_output_features` (`feature_base.py` 163-165, 443-445, 800-802). -/
def outputs : DFeat → Nat
  | mk (.agg _ p) _ _ _ _ => p.outputs
  | mk (.trans p) _ _ _ _ => p.outputs
  | mk (.groupby p) _ _ _ _ => p.outputs
  | mk (.direct _) _ _ (b :: _) _ => b.outputs
  | _ => 1

/-- The adjustments of `variable_type` when a primitive keeps the type of its input (`feature_base.py` 186-198). -/
def keptType (t : String) : String :=
  if t = "DatetimeTimeIndex" then "Datetime"
  else if t = "NumericTimeIndex" then "Numeric"
  else if t = "Index" then "Categorical"
  else if t = "Id" then "Categorical"
  else t

/-- `variable_type` (`feature_base.py` 176-202, 379-381, 457-459). -/
def vtype : DFeat → String
  | mk (.identity _ t) _ _ _ _ => t
  | mk (.direct _) _ _ (b :: _) _ => b.vtype
  | mk (.agg _ p) _ _ (b :: _) _ => p.ret.getD (keptType b.vtype)
  | mk (.trans p) _ _ (b :: _) _ => p.ret.getD (keptType b.vtype)
  | mk (.groupby p) _ _ (b :: _) _ => p.ret.getD (keptType b.vtype)
  | mk (.slice _) _ _ (b :: _) _ => b.prim.ret.getD (keptType b.vtype)
  | _ => ""

/-- `get_dependencies()` (`feature_base.py` 109-115). -/
def deps (f : DFeat) : List DFeat := f.bases ++ f.wh

mutual
/-- `get_dependencies(deep=True)` (`feature_base.py` 99-126), nothing ignored. -/
def deepDeps : DFeat → List DFeat
  | mk _ _ _ bases wh => (bases ++ wh) ++ (deepDepsL bases ++ deepDepsL wh)
/-- The loop over the dependencies (`feature_base.py` 121-124). -/
def deepDepsL : List DFeat → List DFeat
  | [] => []
  | d :: ds => d.deepDeps ++ deepDepsL ds
end

mutual
/-- `get_depth(stop_at)` (`feature_base.py` 128-139, 369-370). The code takes the maximum over all deep dependencies that
are not stopped at, which is that over the direct ones (`C21`). -/
def depth (stop : List String) : DFeat → Nat
  | mk kind e n bases wh =>
    if (mk kind e n bases wh).isIdentity then 0
    else if stop.contains (mk kind e n bases wh).uname then 0
    else max (depthL stop bases) (depthL stop wh) + 1
/-- The largest depth in a list. -/
def depthL (stop : List String) : List DFeat → Nat
  | [] => 0
  | d :: ds => max (d.depth stop) (depthL stop ds)
end

/-- `relationship_path` (`feature_base.py` 351, 399, 529, 657, 792). -/
def path : DFeat → RelPath
  | mk (.direct r) _ _ _ _ => [(true, r)]
  | mk (.agg p _) _ _ _ _ => p
  | mk (.slice _) _ _ (b :: _) _ => b.path
  | _ => []

end DFeat

/-- How names are made (`generate_name`, `generate_names`: `feature_base.py` 461-477, 609-621, 670-674, 714-725, 797-798;
`transform_primitive_base.py` 16-26, `aggregation_primitive_base.py` 16-37): functions of what the code passes them. The
path of an aggregation is given as a path; the code passes its name. -/
structure Namer where
  direct : Relationship → String → String
  agg : Prim → RelPath → List String → Option String → String
  trans : Prim → List String → String
  groupby : Prim → List String → String → String
  slice : DFeat → Nat → String

/-- What the language and the library decide: `issubclass` between variable types, `str.lower`, and the order in which a set
is iterated. -/
structure Lang where
  sub : String → String → Bool
  lower : String → String
  setOrder : List DFeat → List DFeat
  namer : Namer

end FT
