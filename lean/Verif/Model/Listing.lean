import Verif.Model.DfsInput
import Verif.Model.VarTypes
/-!
# Listing and loading primitives

Models `list_primitives`, `_get_descriptions`, `_get_names_primitives`, `_get_names_valid_inputs`, `list_primitive_files`,
`check_valid_primitive_path` and `load_primitive_from_file` (`primitives/utils.py` 42-66, 95-175) and the entry points of
`primitives/__init__.py` (4-20).
-/
namespace FT

/-- `input_types`: types, or lists of them. -/
inductive InputSig where
  | type (name : String)
  | list (l : List InputSig)

mutual
/-- One round of the loop of `_get_names_valid_inputs` (`primitives/utils.py` 122-125). -/
def InputSig.names : InputSig → List String
  | .type n => [n]
  | .list l => InputSig.namesL l
/-- `_get_names_valid_inputs` (`primitives/utils.py` 119-126), before the names are put in a set. -/
def InputSig.namesL : List InputSig → List String
  | [] => []
  | s :: l => s.names ++ InputSig.namesL l
end

/-- What `list_primitives` reads from a class: `__doc__`, `compatibility`, `input_types`, and the `__name__` of `return_type`. -/
structure PrimInfo where
  doc : Option String
  dask : Bool
  koalas : Bool
  inputs : List InputSig
  ret : Option String

/-- A row of `list_primitives`. -/
structure PrimRow where
  name : String
  kind : String
  dask : Bool
  koalas : Bool
  description : String
  validInputs : String
  returnType : Option String
deriving DecidableEq

/-- `doc.split("\n")[0]` -/
def firstLine (s : String) : String := String.ofList (s.toList.takeWhile fun c => c != '\n')

/-- `_get_descriptions` for one primitive (`primitives/utils.py` 95-102). -/
def description (i : PrimInfo) : String :=
  match i.doc with
  | some d => firstLine d
  | none => ""

/-- The rows of one kind (`primitives/utils.py` 43-52, 105-117); `order` is the order in which Python walks through a set of texts. -/
def rowsOf (info : LibClass → PrimInfo) (order : List String → List String) (kind : String) (d : List (String × LibClass)) : List PrimRow :=
  d.map fun p =>
    { name := p.1, kind := kind, dask := (info p.2).dask, koalas := (info p.2).koalas, description := description (info p.2),
      validInputs := String.intercalate ", " (order (dedup (InputSig.namesL (info p.2).inputs))), returnType := (info p.2).ret }

/-- `list_primitives` (`primitives/utils.py` 42-66). -/
def listPrimitives (lib : Library) (info : LibClass → PrimInfo) (order : List String → List String) : List PrimRow :=
  rowsOf info order "aggregation" (getAggregationPrimitives lib) ++ rowsOf info order "transform" (getTransformPrimitives lib)

/-- `os.path.basename`: what follows the last `/`. -/
def baseName (path : List Char) : List Char := (path.reverse.takeWhile fun c => c != '/').reverse

/-- `check_valid_primitive_path` (`primitives/utils.py` 140-149); `isdir` tells the directories, for names seen from where the program
runs. `filename[0]` is an `IndexError` if there is none. -/
def checkValidPrimitivePath (isdir : List Char → Bool) (path : List Char) : Except PyErr Bool :=
  if isdir path then .ok false
  else if (baseName path).take 2 = ['_', '_'] then .ok false
  else
    match baseName path with
    | [] => .error .indexError
    | c :: s =>
      if c = '.' then .ok false
      else if (c :: s).drop ((c :: s).length - 3) ≠ ['.', 'p', 'y'] then .ok false
      else .ok true

/-- `os.path.join` for a name that does not start with `/`. -/
def joinPath (dir name : List Char) : List Char :=
  match dir.getLast? with
  | none => name
  | some c => if c = '/' then dir ++ name else dir ++ '/' :: name

/-- The loop of `list_primitive_files` (`primitives/utils.py` 131-137). -/
def keepFiles (isdir : List Char → Bool) (dir : List Char) : List (List Char) → Except PyErr (List (List Char))
  | [] => .ok []
  | f :: fs =>
    match checkValidPrimitivePath isdir f with
    | .error e => .error e
    | .ok b =>
      match keepFiles isdir dir fs with
      | .error e => .error e
      | .ok r => .ok (if b then joinPath dir f :: r else r)

/-- A global name of a module and what it holds, if that is a class: which class, whether it is a subclass of `PrimitiveBase`, whether
it is `AggregationPrimitive` or `TransformPrimitive`, and whether the file defines it (rather than importing it). -/
structure ModVar where
  name : String
  cls : Option Nat
  primitive : Bool
  base : Bool
  defined : Bool
deriving DecidableEq

/-- `load_primitive_from_file` (`primitives/utils.py` 152-175), given what running the file leaves in the module. -/
def loadPrimitive (module : Except PyErr (List ModVar)) : Except PyErr (String × Nat) :=
  match module with
  | .error e => .error e
  | .ok vars =>
    match vars.filterMap fun v => match v.cls with | some c => if v.primitive && !v.base then some (v.name, c) else none | none => none with
    | [] => .error .runtimeError
    | [p] => .ok p
    | _ :: _ :: _ => .error .runtimeError

/-- An element of the list an entry point gives: a class with its `__name__`, or something else, for which `issubclass` fails. -/
inductive EntryItem where
  | cls (pyName : String) (c : LibClass)
  | other

/-- The inner loop (`primitives/__init__.py` 15-17), which ends at the first exception. -/
def registerItems : List (String × LibClass) → List EntryItem → List (String × LibClass)
  | attrs, [] => attrs
  | attrs, .cls n c :: l => registerItems (if c.aggregation || c.transform then putKey n c attrs else attrs) l
  | attrs, .other :: _ => attrs

/-- The entry points (`primitives/__init__.py` 12-20): `none` is one that cannot be loaded (or is no list). -/
def registerAll : List (String × LibClass) → List (Option (List EntryItem)) → List (String × LibClass)
  | attrs, [] => attrs
  | attrs, none :: l => registerAll attrs l
  | attrs, some items :: l => registerAll (registerItems attrs items) l

end FT
