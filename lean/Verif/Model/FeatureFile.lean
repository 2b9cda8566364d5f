import Verif.Model.Basic
import Verif.Model.Timedelta
import Verif.Model.PrimFile
/-!
# Saving and loading features

Models `feature_base/features_serializer.py`, `feature_base/features_deserializer.py` and the methods `get_arguments`,
`to_dictionary`, `from_dictionary` of `feature_base/feature_base.py`. The text between the two (`json.dumps` and
`json.loads`) is taken to give back what it was given; the version check is `C17`, the entity set `C15`.
-/
namespace FT

/-- The feature classes with what their constructors are given, apart from the base features. The group-by feature is the last
base feature. -/
inductive SKind where
  | identity (var : String)
  | direct (rel : Relationship)
  | agg (path : List Relationship) (prim : PInst) (prev : Option Timedelta)
  | trans (prim : PInst)
  | groupby (prim : PInst)
  | slice (n : Nat)
deriving DecidableEq

/-- A feature: its class, `entity_id`, `get_name()`, `base_features`, and the `where` feature, if any. -/
inductive SFeat where
  | mk (kind : SKind) (entity name : String) (bases wh : List SFeat)

namespace SFeat

def kind : SFeat → SKind | mk k _ _ _ _ => k
def entity : SFeat → String | mk _ e _ _ _ => e
def name : SFeat → String | mk _ _ n _ _ => n
def bases : SFeat → List SFeat | mk _ _ _ b _ => b
def wh : SFeat → List SFeat | mk _ _ _ _ w => w

/-- `unique_name()` (`feature_base.py` 335-336). -/
def uname (f : SFeat) : String := f.entity ++ ": " ++ f.name

/-- `get_dependencies()` (`feature_base.py` 109-115). -/
def deps (f : SFeat) : List SFeat := f.bases ++ f.wh

mutual
/-- `get_dependencies(deep=True)` (`feature_base.py` 99-126). -/
def deepDeps : SFeat → List SFeat
  | mk _ _ _ bases wh => (bases ++ wh) ++ (deepDepsL bases ++ deepDepsL wh)
/-- The loop over the dependencies (`feature_base.py` 121-124). -/
def deepDepsL : List SFeat → List SFeat
  | [] => []
  | d :: ds => d.deepDeps ++ deepDepsL ds
end

end SFeat

/-- `'type'` and `'arguments'` of a stored feature; `other` stands for any other type. -/
inductive SArgs where
  | identity (name var entity : String)
  | direct (name base : String) (rel : Relationship)
  | agg (name : String) (bases : List String) (path : List Relationship) (prim : PDict) (wh : Option String) (prev : Option Timedelta.Args)
  | trans (name : String) (bases : List String) (prim : PDict)
  | groupby (name : String) (bases : List String) (prim : PDict) (groupby : String)
  | slice (name base : String) (n : Nat)
  | other (type : String)
deriving DecidableEq

/-- A stored feature (`feature_base.py` 211-216). -/
structure SDef where
  dependencies : List String
  args : SArgs
deriving DecidableEq

/-- The name of the first feature of a list. -/
def headName (l : List SFeat) : String := match l with | b :: _ => b.uname | [] => ""

/-- `get_arguments` (`feature_base.py` 372-377, 468-474, 623-631, 676-681, 727-736, 804-809): a group-by feature leaves out
every base feature with the name of the group-by feature. -/
def SFeat.getArguments (f : SFeat) : SArgs :=
  match f.kind with
  | .identity v => .identity f.name v f.entity
  | .direct r => .direct f.name (headName f.bases) r
  | .agg path p prev => .agg f.name (f.bases.map SFeat.uname) path (serializePrimitive p) (f.wh.head?.map SFeat.uname) (prev.map Timedelta.getArguments)
  | .trans p => .trans f.name (f.bases.map SFeat.uname) (serializePrimitive p)
  | .groupby p => .groupby f.name ((f.bases.map SFeat.uname).filter fun n => n != headName f.bases.reverse) (serializePrimitive p)
      (headName f.bases.reverse)
  | .slice n => .slice f.name (headName f.bases) n

/-- `to_dictionary` (`feature_base.py` 211-216). -/
def SFeat.toDictionary (f : SFeat) : SDef := ⟨f.deps.map SFeat.uname, f.getArguments⟩

/-- `d[name] = feature.to_dictionary()` unless the name is there (`features_serializer.py` 113-115). -/
def storeIfNew (d : List (String × SDef)) (f : SFeat) : List (String × SDef) :=
  if d.any fun x => x.1 == f.uname then d else d ++ [(f.uname, f.toDictionary)]

/-- `_serialize_feature` (`features_serializer.py` 105-115). -/
def serializeFeature (d : List (String × SDef)) (f : SFeat) : List (String × SDef) :=
  if d.any fun x => x.1 == f.uname then d else f.deepDeps.foldl storeIfNew (d ++ [(f.uname, f.toDictionary)])

/-- What is saved (`features_serializer.py` 69-79), without versions and entity set. -/
structure FeatureFile where
  featureList : List String
  definitions : List (String × SDef)
deriving DecidableEq

/-- `save_features` (`features_serializer.py` 69-104): without features there is no entity set to save. -/
def saveFeatures (fs : List SFeat) : Except PyErr FeatureFile :=
  if fs.isEmpty then .error .indexError
  else .ok ⟨fs.map SFeat.uname, fs.foldl serializeFeature []⟩

/-- `_deserialized_features` and the primitives deserializer (`features_deserializer.py` 77-82). -/
structure LState where
  memo : List (String × SFeat)
  prims : PDeser

/-- `dependencies[name]`. -/
def depFor (deps : List (String × SFeat)) (n : String) : Except PyErr SFeat :=
  match deps.lookup n with | some f => .ok f | none => .error .keyError

/-- `[dependencies[name] for name in names]`. -/
def depsFor (deps : List (String × SFeat)) : List String → Except PyErr (List SFeat)
  | [] => .ok []
  | n :: ns => match depFor deps n with
    | .error e => .error e
    | .ok f => match depsFor deps ns with
      | .error e => .error e
      | .ok fs => .ok (f :: fs)

/-- `entityset[entity][variable]` is there. -/
abbrev Known := String → String → Bool

/-- `Relationship.from_dictionary` (`entityset/relationship.py` 33-37) finds its variables. -/
def relKnown (known : Known) (r : Relationship) : Bool := known r.parentE r.parentV && known r.childE r.childV

/-- The constructor of `TransformFeature` (`feature_base.py` 641-659): there are base features, of one entity. Checks on types and
numbers of outputs are left out, here and below: they depend on the arguments only, so what was built once passes them
again. -/
def makeTrans (kind : SKind) (name : String) (bases : List SFeat) : Except PyErr SFeat :=
  match bases with
  | [] => .error .assertionError
  | b :: bs => if bs.all fun c => c.entity == b.entity then .ok (.mk kind b.entity name bases []) else .error .assertionError

/-- The constructor of `AggregationFeature` (`feature_base.py` 489-567), given a path. -/
def makeAgg (name : String) (bases : List SFeat) (path : List Relationship) (p : PInst) (prev : Option Timedelta) (wh : List SFeat) :
    Except PyErr SFeat :=
  match bases, path with
  | [], _ => .error .assertionError
  | _ :: _, [] => .error .indexError
  | b :: bs, r :: rs =>
    if !(bs.all fun c => c.entity == b.entity) then .error .assertionError
    else if ((r :: rs).getLast (by simp)).childE != b.entity then .error .assertionError
    else if !(wh.all fun w => w.entity == b.entity) then .error .assertionError
    else .ok (.mk (.agg path p prev) r.parentE name bases wh)

/-- `use_previous` (`feature_base.py` 578-579). -/
def loadPrev (prev : Option Timedelta.Args) : Except PyErr (Option Timedelta) :=
  match prev with
  | none => .ok none
  | some a => (Timedelta.fromDictionary a).map some

/-- `where` (`feature_base.py` 581-582). -/
def loadWhere (deps : List (String × SFeat)) (wh : Option String) : Except PyErr (List SFeat) :=
  match wh with
  | none => .ok []
  | some n => (depFor deps n).map fun f => [f]

/-- `AggregationFeature.from_dictionary` (`feature_base.py` 568-585) once the primitive is there. -/
def finishAgg (deps : List (String × SFeat)) (name : String) (bs : List SFeat) (path : List Relationship) (p : PInst) (wh : Option String)
    (prev : Option Timedelta.Args) : Except PyErr SFeat :=
  match loadPrev prev with
  | .error e => .error e
  | .ok pv => match loadWhere deps wh with
    | .error e => .error e
    | .ok w => makeAgg name bs path p pv w

/-- Going on with a primitive, if there is one. -/
def withPrim {α : Type} (s : PDeser) (d : PDict) (k : PInst → Except PyErr α) : Except PyErr (α × PDeser) :=
  match deserializePrimitive s d with
  | (.error e, _) => .error e
  | (.ok p, s') => (k p).map fun x => (x, s')

/-- `from_dictionary` (`feature_base.py` 355-360, 429-437, 568-585, 661-665, 700-705, 811-817; `features_deserializer.py`
120-123 for a type that is not there). -/
def fromDictionary (known : Known) (s : PDeser) (deps : List (String × SFeat)) : SArgs → Except PyErr (SFeat × PDeser)
  | .identity n v e => if known e v then .ok (.mk (.identity v) e n [] [], s) else .error .keyError
  | .direct n b r => match depFor deps b with
    | .error e => .error e
    | .ok f =>
      if !relKnown known r then .error .keyError
      else if f.entity = r.parentE then .ok (.mk (.direct r) r.childE n [f] [], s) else .error .assertionError
  | .agg n bs path p wh prev => match depsFor deps bs with
    | .error e => .error e
    | .ok bs =>
      if path.any fun r => !relKnown known r then .error .keyError
      else if path.isEmpty then .error .indexError
      else withPrim s p fun p => finishAgg deps n bs path p wh prev
  | .trans n bs p => match depsFor deps bs with
    | .error e => .error e
    | .ok bs => withPrim s p fun p => makeTrans (.trans p) n bs
  | .groupby n bs p g => match depsFor deps bs with
    | .error e => .error e
    | .ok bs => withPrim s p fun p => match depFor deps g with
      | .error e => .error e
      | .ok g => makeTrans (.groupby p) n (bs ++ [g])
  | .slice n b i => match depFor deps b with
    | .error e => .error e
    | .ok f => .ok (.mk (.slice i) f.entity n [f] [], s)
  | .other _ => .error .runtimeError

/-- `{dependency: self._deserialize_feature(dependency) for …}` (`features_deserializer.py` 116-117). -/
def loadDeps (load : LState → String → Except PyErr (SFeat × LState)) (s : LState) : List String → Except PyErr (List (String × SFeat) × LState)
  | [] => .ok ([], s)
  | n :: ns => match load s n with
    | .error e => .error e
    | .ok (f, s') => match loadDeps load s' ns with
      | .error e => .error e
      | .ok (fs, s'') => .ok ((n, f) :: fs, s'')

/-- `_deserialize_feature` (`features_deserializer.py` 108-129); the number bounds its recursion, beyond which Python raises
`RecursionError`, a `RuntimeError`. -/
def loadFeature (known : Known) (defs : List (String × SDef)) : Nat → LState → String → Except PyErr (SFeat × LState)
  | 0, _, _ => .error .runtimeError
  | k + 1, s, n => match s.memo.lookup n with
    | some f => .ok (f, s)
    | none => match defs.lookup n with
      | none => .error .keyError
      | some d => match loadDeps (loadFeature known defs k) s d.dependencies with
        | .error e => .error e
        | .ok (deps, s') => match fromDictionary known s'.prims deps d.args with
          | .error e => .error e
          | .ok (f, ps) => .ok (f, ⟨(n, f) :: s'.memo, ps⟩)

/-- `load_features` (`features_deserializer.py` 67-69, 104-106), given the entity set, the classes and a recursion limit. -/
def loadFeatures (known : Known) (root : ClassTree) (limit : Nat) (file : FeatureFile) : Except PyErr (List SFeat) :=
  match loadDeps (loadFeature known file.definitions limit) ⟨[], .new root⟩ file.featureList with
  | .error e => .error e
  | .ok (fs, _) => .ok (fs.map Prod.snd)

end FT
