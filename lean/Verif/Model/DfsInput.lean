import Verif.Model.DfsRun
/-!
# The arguments of Deep Feature Synthesis as the user writes them

Models how `DeepFeatureSynthesis.__init__` (`deep_feature_synthesis.py` 145-256) reads primitives, ignored entities and variables and
primitive options: `get_aggregation_primitives`, `get_transform_primitives` (`primitives/utils.py` 17-40), `handle_primitive`,
`check_trans_primitive` (`deep_feature_synthesis.py` 922-945), `_init_primitive_options`, `_init_option_dict`, `list_entity_check`,
`dict_to_list_variable_check` (`options_utils.py` 12-46, 100-159). Data is in pandas; warnings are left out.
-/
namespace FT

/-- A primitive class of the library: `name` (empty for `None`), whether it is an aggregation or a transform primitive, the number of
inputs of its (first) signature, and the outcome of calling it without arguments. `uid` tells classes apart. -/
structure LibClass where
  uid : Nat
  name : String
  aggregation : Bool
  transform : Bool
  arity : Nat
  make : Except PyErr Prim
deriving DecidableEq

/-- The library: the attributes of `featuretools.primitives` that are classes (with their names, in the order of `dir`), the order in
which Python walks through a set of classes, `str.lower`, and the primitives used by default. -/
structure Library where
  attrs : List (String × LibClass)
  setOrder : List LibClass → List LibClass
  lower : String → String
  defaultAggs : List LibClass
  defaultTrans : List LibClass
  count : LibClass

/-- `{prim.name.lower(): prim for prim in primitives}`: a later class replaces an earlier one. -/
def byLowerName (lower : String → String) : List LibClass → List (String × LibClass)
  | [] => []
  | c :: cs =>
    match (byLowerName lower cs).lookup (lower c.name) with
    | some d => (lower c.name, d) :: (byLowerName lower cs).filter fun p => p.1 != lower c.name
    | none => (lower c.name, c) :: byLowerName lower cs

/-- `get_aggregation_primitives` (`primitives/utils.py` 17-26). -/
def getAggregationPrimitives (lib : Library) : List (String × LibClass) :=
  byLowerName lib.lower (lib.setOrder (dedup ((lib.attrs.map Prod.snd).filter fun c => c.aggregation && c.name != "")))

/-- `get_transform_primitives` (`primitives/utils.py` 30-39). -/
def getTransformPrimitives (lib : Library) : List (String × LibClass) :=
  byLowerName lib.lower (lib.setOrder (dedup ((lib.attrs.map Prod.snd).filter fun c => c.transform && c.name != "")))

/-- A primitive as it can be given: a text, a class, an instance, or something whose call fails (or gives no primitive). -/
inductive RawPrim where
  | text (s : String)
  | cls (c : LibClass)
  | inst (p : Prim)
  | other (e : PyErr)
deriving DecidableEq

/-- A text is looked up in lower case (206-212, 227-234, 932-937). -/
def lookupText (lib : Library) (dict : List (String × LibClass)) : RawPrim → Except PyErr RawPrim
  | .text s =>
    match dict.lookup (lib.lower s) with
    | some c => .ok (.cls c)
    | none => .error .valueError
  | r => .ok r

/-- `handle_primitive` (922-926). A text cannot be called. -/
def handlePrimitive : RawPrim → Except PyErr Prim
  | .inst p => .ok p
  | .cls c => c.make
  | .other e => .error e
  | .text _ => .error .typeError

/-- One element of `agg_primitives` (206-217); a primitive is an aggregation or a transform primitive. -/
def readAgg (lib : Library) (r : RawPrim) : Except PyErr Prim :=
  match lookupText lib (getAggregationPrimitives lib) r with
  | .error e => .error e
  | .ok r =>
    match handlePrimitive r with
    | .error e => .error e
    | .ok p => if p.transform then .error .valueError else .ok p

/-- `check_trans_primitive` (929-945). -/
def readTrans (lib : Library) (r : RawPrim) : Except PyErr Prim :=
  match lookupText lib (getTransformPrimitives lib) r with
  | .error e => .error e
  | .ok r =>
    match handlePrimitive r with
    | .error e => .error e
    | .ok p => if p.transform then .ok p else .error .valueError

/-- One element of `where_primitives` (227-236): its kind is not checked. -/
def readWhere (lib : Library) (r : RawPrim) : Except PyErr Prim :=
  match lookupText lib (getAggregationPrimitives lib) r with
  | .error e => .error e
  | .ok r => handlePrimitive r

/-- A loop that appends the outcome for each element and stops at the first error. -/
def readEach {α β : Type} (f : α → Except PyErr β) : List α → Except PyErr (List β)
  | [] => .ok []
  | a :: as =>
    match f a with
    | .error e => .error e
    | .ok b =>
      match readEach f as with
      | .error e => .error e
      | .ok bs => .ok (b :: bs)

/-- The value of an option: a list of texts, a dict from texts to lists (`none`: something else), or something else. -/
inductive OptVal where
  | list (l : List String)
  | dict (d : List (String × Option (List String)))
  | other
deriving DecidableEq

/-- The options for one input: a dict, or something else. -/
inductive RawOption where
  | dict (d : List (String × OptVal))
  | other
deriving DecidableEq

/-- The options of a primitive: a list with one for each input, or a single one. -/
inductive RawOptions where
  | many (l : List RawOption)
  | one (o : RawOption)
deriving DecidableEq

/-- A key of `primitive_options`: a name, a class, or an instance. -/
inductive RawKey where
  | text (s : String)
  | cls (c : LibClass)
  | inst (p : Prim)
deriving DecidableEq

/-- `list_entity_check` (`options_utils.py` 39-45): the list. -/
def entityList : OptVal → Option (List String)
  | .list l => some l
  | _ => none

/-- All values of a dict are lists. -/
def allLists : List (String × Option (List String)) → Option VarDict
  | [] => some []
  | (k, some l) :: d => (allLists d).map fun r => (k, l) :: r
  | (_, none) :: _ => none

/-- `dict_to_list_variable_check` (`options_utils.py` 24-36): the dict. -/
def variableDict : OptVal → Option VarDict
  | .dict d => allLists d
  | _ => none

/-- One round of the loop of `_init_option_dict` (`options_utils.py` 143-154), given the options read so far: `none` is an unknown
option, `some none` a value of the wrong type. -/
def setOption (o : POption) (k : String) (v : OptVal) : Option (Option POption) :=
  if k = "ignore_entities" then some ((entityList v).map fun l => { o with ignoreEntities := l })
  else if k = "include_entities" then some ((entityList v).map fun l => { o with includeEntities := some l })
  else if k = "ignore_variables" then some ((variableDict v).map fun d => { o with ignoreVars := d })
  else if k = "include_variables" then some ((variableDict v).map fun d => { o with includeVars := some d })
  else if k = "ignore_groupby_entities" then some ((entityList v).map fun l => { o with ignoreGbEntities := some l })
  else if k = "include_groupby_entities" then some ((entityList v).map fun l => { o with includeGbEntities := some l })
  else if k = "ignore_groupby_variables" then some ((variableDict v).map fun d => { o with ignoreGbVars := some d })
  else if k = "include_groupby_variables" then some ((variableDict v).map fun d => { o with includeGbVars := some d })
  else none

/-- `_init_option_dict` (`options_utils.py` 139-159); `named` says that all keys are texts, since the messages join them (146, 149). -/
def readOptionFrom (named : Bool) (o : POption) : List (String × OptVal) → Except PyErr POption
  | [] => .ok o
  | (k, v) :: d =>
    match setOption o k v with
    | none => .error (if named then .keyError else .typeError)
    | some none => .error .typeError
    | some (some o) => readOptionFrom named o d

/-- `_init_option_dict` on what was given; only dicts have `items`. -/
def readOption (named : Bool) : RawOption → Except PyErr POption
  | .dict d => readOptionFrom named {} d
  | .other => .error .attributeError

/-- `isinstance(primitive_key, str)` -/
def RawKey.isText : RawKey → Bool
  | .text _ => true
  | _ => false

/-- The number of inputs of the primitive a key stands for (`options_utils.py` 110-123); a name is looked up as it is. -/
def keyArity (lib : Library) : RawKey → Except PyErr Nat
  | .text s =>
    match (getAggregationPrimitives lib).lookup s with
    | some c => .ok c.arity
    | none =>
      match (getTransformPrimitives lib).lookup s with
      | some c => .ok c.arity
      | none => .error .valueError
  | .cls c => .ok c.arity
  | .inst p => .ok p.inputs.length

/-- The check of the number of options (`options_utils.py` 109-123). -/
def checkArities (lib : Library) (n : Nat) : List RawKey → Except PyErr Unit
  | [] => .ok ()
  | k :: ks =>
    match keyArity lib k with
    | .error e => .error e
    | .ok m => if m = n then checkArities lib n ks else .error .assertionError

/-- The options of one entry (`options_utils.py` 108-127). -/
def readOptions (lib : Library) (keys : List RawKey) : RawOptions → Except PyErr (List POption)
  | .many l =>
    match checkArities lib l.length keys with
    | .error e => .error e
    | .ok () => readEach (readOption (keys.all RawKey.isText)) l
  | .one o => readEach (readOption (keys.all RawKey.isText)) [o]

/-- The key under which options are stored (`options_utils.py` 130-131): classes by their name. -/
def RawKey.key : RawKey → PKey
  | .text s => .named s
  | .cls c => .named c.name
  | .inst p => .inst p

/-- The inner loop (`options_utils.py` 129-138): a primitive that occurs twice is a `KeyError`. -/
def storeKeys (options : List POption) : List (PKey × List POption) → List RawKey → Except PyErr (List (PKey × List POption))
  | acc, [] => .ok acc
  | acc, k :: ks => if acc.any fun p => p.1 == k.key then .error .keyError else storeKeys options (acc ++ [(k.key, options)]) ks

/-- `_init_primitive_options` (`options_utils.py` 100-138); a key that is no tuple is a tuple of one. -/
def readPrimitiveOptions (lib : Library) : List (PKey × List POption) → List (List RawKey × RawOptions) →
    Except PyErr (List (PKey × List POption))
  | acc, [] => .ok acc
  | acc, (keys, opts) :: rest =>
    match readOptions lib keys opts with
    | .error e => .error e
    | .ok options =>
      match storeKeys options acc keys with
      | .error e => .error e
      | .ok acc => readPrimitiveOptions lib acc rest

/-- `ignore_entities`: nothing, a list, or something else. -/
inductive RawIgnore where
  | none
  | list (l : List String)
  | other
deriving DecidableEq

/-- A key and a value of `ignore_variables`: `none` stands for a key that is no text, a value that is no list, an element that is no
text. -/
abbrev RawIgnoreVars := List (Option String × Option (List (Option String)))

/-- Reading one entry of `ignore_variables` that passed the checks. -/
def ignoreEntry : Option String × Option (List (Option String)) → String × List String
  | (k, v) => (k.getD "", (v.getD []).map fun x => x.getD "")

/-- `ignore_variables` (181-190). -/
def readIgnoreVars : Option RawIgnoreVars → Except PyErr VarDict
  | none => .ok []
  | some d =>
    if !(d.all fun kv => kv.1.isSome) || !(d.all fun kv => kv.2.isSome) then .error .typeError
    else if !(d.all fun kv => (kv.2.getD []).all Option.isSome) then .error .typeError
    else .ok (d.map ignoreEntry)

/-- `ignore_entities` (172-179). -/
def readIgnore (target : String) : RawIgnore → Except PyErr (List String)
  | .none => .ok []
  | .list l => if l.contains target then .error .assertionError else .ok l
  | .other => .error .typeError

/-- The arguments of `DeepFeatureSynthesis` as the user writes them. -/
structure RawArgs where
  target : String
  maxDepth : Int
  aggs : Option (List RawPrim)
  trans : Option (List RawPrim)
  wheres : Option (List RawPrim)
  groupbys : Option (List RawPrim)
  allowedPaths : List (List String)
  ignoreEntities : RawIgnore
  ignoreVariables : Option RawIgnoreVars
  options : Option (List (List RawKey × RawOptions))
  seeds : List DFeat
  whereLimit : Int
  sel : Selection

/-- `DeepFeatureSynthesis.__init__` up to the options (145-256), in its order. -/
def readArgs (lib : Library) (ents : List DEnt) (raw : RawArgs) : Except PyErr DfsArgs :=
  if !ents.any (fun d => d.id == raw.target) then .error .keyError
  else
    match readIgnore raw.target raw.ignoreEntities with
    | .error e => .error e
    | .ok ie =>
      match readIgnoreVars raw.ignoreVariables with
      | .error e => .error e
      | .ok iv =>
        match readEach (readAgg lib) (raw.aggs.getD (lib.defaultAggs.map .cls)) with
        | .error e => .error e
        | .ok aggs =>
          match readEach (readTrans lib) (raw.trans.getD (lib.defaultTrans.map .cls)) with
          | .error e => .error e
          | .ok trans =>
            match readEach (readWhere lib) (raw.wheres.getD [.cls lib.count]) with
            | .error e => .error e
            | .ok wheres =>
              match readEach (readTrans lib) (raw.groupbys.getD []) with
              | .error e => .error e
              | .ok groupbys =>
                match readPrimitiveOptions lib [] (raw.options.getD []) with
                | .error e => .error e
                | .ok options =>
                  .ok { target := raw.target, maxDepth := raw.maxDepth, aggs := aggs, trans := trans, wheres := wheres,
                        groupbys := groupbys, allowedPaths := raw.allowedPaths, ignoreEntities := ie, ignoreVariables := iv,
                        options := options, seeds := raw.seeds, whereLimit := raw.whereLimit, sel := raw.sel }

/-- `dfs(…, features_only=True)` on what the user writes. -/
def dfsCall (L : Lang) (equalScalar : Val → Prim) (lib : Library) (ents : List DEnt) (rels : List Relationship) (raw : RawArgs) :
    Except DfsErr (List DFeat) :=
  match readArgs lib ents raw with
  | .error e => .error (.py e)
  | .ok a => dfsFeatures L equalScalar ents rels a

end FT
