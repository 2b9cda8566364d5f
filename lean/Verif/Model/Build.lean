import Verif.Model.Schema
import Verif.Model.Timedelta
/-!
# Building features by hand

Models the constructors of `feature_base/feature_base.py` (`FeatureBase` 28-65, 141-156; `DirectFeature` 390-427;
`AggregationFeature` 489-566; `TransformFeature` 641-659; `GroupByTransformFeature` 685-698; `Feature` 739-765;
`FeatureOutputSlice` 773-798; `_check_feature` 822-828) and `_check_time_against_column` (`utils/wrangle.py` 76-99).  The question
is which calls are accepted, and along which path.  Names are those of the features given; primitives are instances (a class is
instantiated without arguments, 46-48).
-/
namespace FT

/-- An entity as a feature sees it: `entityset.metadata` at the time the feature was made (39-40, 159-161).  `obj` stands for the
string object `id`: two strings that are equal need not be one object.  `vars` are the variables with their types. -/
structure BuildEnt where
  id : String
  obj : Nat
  index : String
  timeIndex : Option String
  secondary : List (String × List String)
  vars : List (String × String)
deriving DecidableEq

/-- Two entities are one element of a `set` (`entity.py` 101-111, 153-154): the hash is the address of the id, then `__eq__`
compares.  `set(variables)` is compared by name and type; that a type equals a subtype in one direction is left out. -/
def sameEnt (a b : BuildEnt) : Bool :=
  a.obj == b.obj && a.index == b.index && a.timeIndex == b.timeIndex && a.secondary == b.secondary &&
    (a.vars.length == b.vars.length && a.vars.all b.vars.contains && b.vars.all a.vars.contains)

/-- A feature that is given: its entity, name, `variable_type` and `number_output_features`. -/
structure BFeat where
  ent : BuildEnt
  name : String
  vtype : String
  outputs : Nat
deriving DecidableEq

/-- What can be given where a feature is expected: a feature, a variable, or something else. -/
inductive BArg where
  | feature (f : BFeat)
  | var (f : BFeat)
  | other
deriving DecidableEq

/-- `base_features`: something iterable or one thing. -/
inductive BList where
  | many (l : List BArg)
  | one (a : BArg)
deriving DecidableEq

/-- A primitive: `input_types` (`none` for `None`, else the alternatives, 145-148), `number_output_features`, and whether it is an
aggregation or a transform primitive. -/
structure BPrim where
  inputs : Option (List (List String))
  outputs : Nat
  aggregation : Bool
  transform : Bool
deriving DecidableEq

/-- The class of a feature, with what is special to it. -/
inductive BKind where
  | identity
  | direct (r : Relationship)
  | agg (path : RelPath) (pathUnique : Bool) (prev : Option Timedelta)
  | trans
  | groupby (g : BFeat)
  | slice (n : Int)

/-- A feature that was built: class, `entity_id`, `base_features`, `where`. -/
structure NewFeat where
  kind : BKind
  entity : String
  bases : List BFeat
  wh : Option BFeat

/-- `_check_feature` (822-828). A variable stands for its identity feature. -/
def checkFeature : BArg → Except PyErr BFeat
  | .feature f => .ok f
  | .var f => .ok f
  | .other => .error .other

/-- `[_check_feature(bf) for bf in base_features]` -/
def checkFeatures : List BArg → Except PyErr (List BFeat)
  | [] => .ok []
  | a :: l =>
    match checkFeature a with
    | .error e => .error e
    | .ok f =>
      match checkFeatures l with
      | .error e => .error e
      | .ok fs => .ok (f :: fs)

/-- The base features (491-500, 644-653): iterables have to be of one entity; whole multi-output features are rejected. -/
def checkBases (b : BList) : Except PyErr (List BFeat) :=
  match (match b with
    | .one a => checkFeatures [a]
    | .many l =>
      match checkFeatures l with
      | .error e => .error e
      | .ok fs => match fs with
        | [] => .error .assertionError
        | f :: rest => if rest.all fun g => sameEnt f.ent g.ent then .ok (f :: rest) else .error .assertionError) with
  | .error e => .error e
  | .ok fs => if fs.any fun f => f.outputs > 1 then .error .valueError else .ok fs

/-- `_check_input_types` (141-156): `zip` stops at the shorter list. -/
def inputsOk (sub : String → String → Bool) (p : BPrim) (bases : List BFeat) : Bool :=
  bases.isEmpty || match p.inputs with
    | none => true
    | some alts => alts.any fun t => (t.zip bases).all fun tf => sub tf.2.vtype tf.1

/-- `_handle_relationship` (403-427). -/
def handleRelationship (rels : List Relationship) (parent child : String) : Option Relationship → Except PyErr Relationship
  | some r =>
    if child = r.childE then if parent = r.parentE then .ok r else .error .assertionError else .error .assertionError
  | none =>
    match (getForwardRelationships rels child).filter fun r => r.parentE == parent with
    | [] => .error .runtimeError
    | [r] => .ok r
    | _ :: _ :: _ => .error .runtimeError

/-- `DirectFeature(base_feature, child_entity, relationship)` (390-401); `PrimitiveBase` has no `input_types`. -/
def handDirect (rels : List Relationship) (base : BArg) (child : String) (rel : Option Relationship) : Except PyErr NewFeat :=
  match checkFeature base with
  | .error e => .error e
  | .ok f =>
    match handleRelationship rels f.ent.id child rel with
    | .error e => .error e
    | .ok r => .ok ⟨.direct r, child, [f], none⟩

/-- `_handle_relationship_path` (534-566): the path and whether it is the only one. An empty path counts as no path (535). A
`StopIteration` of `has_unique_forward_path` is `.other`. -/
def handlePath (rels : List Relationship) (parent child : String) (path : Option RelPath) : Except PyErr (RelPath × Bool) :=
  match path with
  | some ((fwd, r) :: rest) =>
    if !(((fwd, r) :: rest).all fun s => !s.1) then .error .assertionError
    else if parent ≠ r.parentE then .error .assertionError
    else if child ≠ (((fwd, r) :: rest).getLast (by simp)).2.childE then .error .assertionError
    else match hasUniqueForwardPath rels child parent with
      | .error _ => .error .other
      | .ok u => .ok ((fwd, r) :: rest, u)
  | _ =>
    match findBackwardPaths rels parent child with
    | [] => .error .runtimeError
    | [] :: _ => .error .runtimeError
    | (r :: p) :: rest =>
      match rest with
      | (_ :: _) :: _ => .error .runtimeError
      | _ => .ok ((r :: p).map fun r => (false, r), true)

/-- `_check_time_against_column` (`utils/wrangle.py` 76-99) for a `Timedelta`: for columns that are not times it reads `time.unit`,
which a `Timedelta` does not have. -/
def checkTimeColumn (sub : String → String → Bool) (vtype : String) : Except PyErr Bool :=
  if sub vtype "Datetime" || sub vtype "DatetimeTimeIndex" then .ok true
  else if sub vtype "Ordinal" || sub vtype "Numeric" || sub vtype "TimeIndex" then .error .attributeError
  else .ok false

/-- The check of `use_previous` (514-525); the argument is `none` if it is `None` or counts as false, else the outcome of
`_check_timedelta`. -/
def checkPrevious (sub : String → String → Bool) (ent : BuildEnt) (prev : Option (Except PyErr Timedelta)) :
    Except PyErr (Option Timedelta) :=
  match prev with
  | none => .ok none
  | some td =>
    match ent.timeIndex with
    | none => .error .assertionError
    | some ti =>
      match td with
      | .error e => .error e
      | .ok td =>
        match ent.vars.lookup ti with
        | none => .error .keyError
        | some ty =>
          match checkTimeColumn sub ty with
          | .error e => .error e
          | .ok ok => if ok then .ok (some td) else .error .assertionError

/-- The check of `where` (508-512). -/
def checkWhere (child : String) : Option BArg → Except PyErr (Option BFeat)
  | none => .ok none
  | some a =>
    match checkFeature a with
    | .error e => .error e
    | .ok w => if w.ent.id = child then .ok (some w) else .error .assertionError

/-- `AggregationFeature(base_features, parent_entity, primitive, relationship_path, use_previous, where)` (489-532). -/
def handAgg (sub : String → String → Bool) (rels : List Relationship) (bases : BList) (parent : String) (p : BPrim)
    (path : Option RelPath) (prev : Option (Except PyErr Timedelta)) (wh : Option BArg) : Except PyErr NewFeat :=
  match checkBases bases with
  | .error e => .error e
  | .ok [] => .error .indexError
  | .ok (f :: fs) =>
    match handlePath rels parent f.ent.id path with
    | .error e => .error e
    | .ok (path, unique) =>
      match checkWhere f.ent.id wh with
      | .error e => .error e
      | .ok w =>
        match checkPrevious sub f.ent prev with
        | .error e => .error e
        | .ok td =>
          if inputsOk sub p (f :: fs) then .ok ⟨.agg path unique td, parent, f :: fs, w⟩ else .error .assertionError

/-- `TransformFeature(base_features, primitive)` (641-659). -/
def handTrans (sub : String → String → Bool) (bases : BList) (p : BPrim) : Except PyErr NewFeat :=
  match checkBases bases with
  | .error e => .error e
  | .ok [] => .error .indexError
  | .ok (f :: fs) => if inputsOk sub p (f :: fs) then .ok ⟨.trans, f.ent.id, f :: fs, none⟩ else .error .assertionError

/-- The group (686-687): what is not a feature has to be a variable. -/
def checkGroup : BArg → Except PyErr BFeat
  | .feature g => .ok g
  | .var g => .ok g
  | .other => .error .attributeError

/-- The base features with the group (691-694): `append` to a list, or a new list. -/
def appendGroup (bases : BList) (g : BFeat) : BList :=
  match bases with
  | .many l => .many (l ++ [.feature g])
  | .one a => .many [a, .feature g]

/-- What the caller has as `base_features` afterwards: a list that was appended to (692) is the caller's list. -/
def callersBases (bases : BList) (g : BFeat) : BList :=
  match bases with
  | .many _ => appendGroup bases g
  | .one a => .one a

/-- A transform feature as a group-by feature (689, 696-698). -/
def regroup (g : BFeat) (f : NewFeat) : NewFeat := { f with kind := .groupby g }

/-- `GroupByTransformFeature(base_features, primitive, groupby)` (685-698): the outcome, and `base_features` as the caller has it
afterwards. -/
def handGroupby (sub : String → String → Bool) (bases : BList) (p : BPrim) (groupby : BArg) : Except PyErr NewFeat × BList :=
  match checkGroup groupby with
  | .error e => (.error e, bases)
  | .ok g =>
    if sub g.vtype "Discrete" then ((handTrans sub (appendGroup bases g) p).map (regroup g), callersBases bases g)
    else (.error .assertionError, bases)

/-- `feature[key]` (60-65) and `FeatureOutputSlice(feature, n)` (773-793). -/
def handSlice (f : BFeat) (key : Int) : Except PyErr NewFeat :=
  if f.outputs > 1 then
    if (f.outputs : Int) > key then .ok ⟨.slice key, f.ent.id, [f], none⟩ else .error .assertionError
  else .error .assertionError

/-- A list at an index that may be negative, as in Python. -/
def pyIndex {α : Type} (l : List α) (k : Int) : Except PyErr α :=
  match (if k < 0 then (if k + l.length < 0 then none else l[(k + l.length).toNat]?) else l[k.toNat]?) with
  | some a => .ok a
  | none => .error .indexError

/-- `generate_name` of a slice (797-798), given the names of the columns of the feature. -/
def sliceName (names : List String) (key : Int) : Except PyErr String := pyIndex names key

/-- The keyword arguments of `Feature` (739-741). -/
structure FeatureArgs where
  base : BList
  entity : Option String
  groupby : Option BArg
  parent : Option String
  primitive : Option BPrim
  prev : Option (Except PyErr Timedelta)
  wh : Option BArg

/-- `Feature(base, ...)` (743-765), with a primitive that is an instance: `issubclass` of an instance is a `TypeError`.  An identity
feature of something that is not a variable is an `AttributeError`. -/
def newFeature (sub : String → String → Bool) (rels : List Relationship) (a : FeatureArgs) : Except PyErr NewFeat :=
  match a.primitive with
  | none =>
    match a.entity with
    | none =>
      match a.base with
      | .one (.var f) => .ok ⟨.identity, f.ent.id, [], none⟩
      | _ => .error .attributeError
    | some child =>
      match a.base with
      | .one b => handDirect rels b child none
      | .many _ => .error .other
  | some p =>
    match a.parent with
    | some parent => if p.aggregation then handAgg sub rels a.base parent p none a.prev a.wh else .error .typeError
    | none =>
      if p.transform then
        match a.groupby with
        | some g => (handGroupby sub a.base p g).1
        | none => handTrans sub a.base p
      else .error .typeError

end FT
