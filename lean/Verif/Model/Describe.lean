import Verif.Model.Util
/-!
# Descriptions of features

Models `feature_base/feature_descriptions.py`, `PrimitiveBase.get_description` (`primitives/base/primitive_base.py` 109-138) and
the part of `str.format` that templates use: `{}`, `{0}`, `{nth_slice}`, `{{` and `}}`.  Format specifications, conversions,
attributes and nested fields are outside (error `other`).  A description is `none` where the code has `None`.
-/
namespace FT

/-- What a primitive contributes. `ident` stands for the object (primitives are compared by identity), `cls` is the name of
the class, `value` is `str(primitive.value)` if there is such an attribute. -/
structure GPrim where
  ident : Nat
  name : Option String
  cls : String
  template : Option (List Char ⊕ List (List Char))
  value : Option String
deriving DecidableEq

/-- `PrimitiveBase()`, the primitive of identity and direct features. -/
def GPrim.base : GPrim := { ident := 0, name := none, cls := "PrimitiveBase", template := none, value := none }

/-- The kinds of features. `identity`: the description of the variable (`variable_types/variable.py` 101-103). `direct`: id of
the parent at the end of the path. `agg`: id of the child at the end of the path, index of the entity of the feature, and
the text of `use_previous` in lower case. -/
inductive GKind where
  | identity (description : String)
  | direct (parent : String)
  | transform (p : GPrim)
  | groupby (p : GPrim)
  | agg (p : GPrim) (child index : String) (previous : Option String)
  | slice (n : Nat)
deriving DecidableEq

/-- A feature with its base features (a group-by feature comes last) and its condition, if any. -/
inductive GFeat where
  | mk (kind : GKind) (entity name : String) (bases wh : List GFeat)

/-- `feature_descriptions`: entries for features (entity, name) and for full names. -/
structure GCustom where
  features : List ((String × String) × String)
  names : List (String × String)
  /-- `primitive_templates`: entries for primitives and for names of primitives -/
  prims : List (Nat × (List Char ⊕ List (List Char)))
  primNames : List (String × (List Char ⊕ List (List Char)))

/-! ### `str.format` -/

/-- Numbering of fields. -/
inductive FNum where
  | unused | auto (next : Nat) | manual
deriving DecidableEq

/-- `str` of an argument. -/
def argText : Option String → String
  | some s => s
  | none => "None"

/-- The value of a field and the numbering after it. -/
def fieldValue (args : List (Option String)) (nth : Option String) (num : FNum) (field : List Char) : Except PyErr (String × FNum) :=
  if field = [] then
    match num with
    | .manual => .error .valueError
    | .unused => match args[0]? with | some a => .ok (argText a, .auto 1) | none => .error .indexError
    | .auto k => match args[k]? with | some a => .ok (argText a, .auto (k + 1)) | none => .error .indexError
  else if field.all Char.isDigit then
    match num with
    | .auto _ => .error .valueError
    | _ => match args[field.foldl (fun a c => 10 * a + (c.toNat - 48)) 0]? with
      | some a => .ok (argText a, .manual)
      | none => .error .indexError
  else if field.any fun c => c == ':' || c == '!' || c == '.' || c == '[' || c == '{' then .error .other
  else if field = ['n', 't', 'h', '_', 's', 'l', 'i', 'c', 'e'] then match nth with | some s => .ok (s, num) | none => .error .keyError
  else .error .keyError

/-- `template.format(*args, nth_slice=nth)`; `inField` is the field read so far. -/
def pyFormat (args : List (Option String)) (nth : Option String) : FNum → Option (List Char) → List Char → Except PyErr (List Char)
  | _, none, [] => .ok []
  | _, some _, [] => .error .valueError
  | num, none, '{' :: '{' :: r => (pyFormat args nth num none r).map ('{' :: ·)
  | num, none, '{' :: r => pyFormat args nth num (some []) r
  | num, none, '}' :: '}' :: r => (pyFormat args nth num none r).map ('}' :: ·)
  | _, none, '}' :: _ => .error .valueError
  | num, none, c :: r => (pyFormat args nth num none r).map (c :: ·)
  | num, some field, '}' :: r =>
    match fieldValue args nth num field with
    | .error e => .error e
    | .ok (s, num') => (pyFormat args nth num' none r).map (s.toList ++ ·)
  | num, some field, c :: r => pyFormat args nth num (some (field ++ [c])) r

/-- `template.format(...)` -/
def format (template : List Char) (args : List (Option String)) (nth : Option String) : Except PyErr String :=
  (pyFormat args nth .unused none template).map String.ofList

/-! ### Primitives -/

/-- A string where one is required. -/
def needText : Option String → Except PyErr String
  | some s => .ok s
  | none => .error .typeError

/-- `', '.join(l)`: an entry that is `None` is a `TypeError`. -/
def joinComma (l : List (Option String)) : Except PyErr String := (l.mapM needText).map fun l => ", ".intercalate l

/-- Empty text and empty lists are false. -/
def truthyTemplate : Option (List Char ⊕ List (List Char)) → Option (List Char ⊕ List (List Char))
  | some (.inl []) => none
  | some (.inr []) => none
  | t => t

/-- `get_description` (`primitive_base.py` 109-138); `upper` is `str.upper`. -/
def primDescription (upper : String → String) (p : GPrim) (inputs : List (Option String)) (slice : Option Nat)
    (override : Option (List Char ⊕ List (List Char))) : Except PyErr String :=
  match (truthyTemplate override).or (truthyTemplate p.template) with
  | some (.inl t) => format t inputs none
  | some (.inr l) =>
    match slice with
    | none => match l[0]? with | some t => format t inputs none | none => .error .indexError
    | some n =>
      if n + 1 < l.length then
        match l[n + 1]? with | some t => format t inputs (some (convertToNth (n + 1))) | none => .error .indexError
      else if l.length > 2 then .error .indexError
      else match l[1]? with | some t => format t inputs (some (convertToNth (n + 1))) | none => .error .indexError
  | none =>
    let name := match p.name with | some s => upper s | none => p.cls
    (joinComma inputs).map fun l =>
      match slice with
      | some n => "the " ++ convertToNth (n + 1) ++ " output from applying " ++ name ++ " to " ++ l
      | none => "the result of applying " ++ name ++ " to " ++ l

/-! ### Features -/

/-- `a or b` for the results of two `dict.get`: `None` and empty text are false. -/
def orGet (a b : Option String) : Option String :=
  match a with
  | some s => if s = "" then b else some s
  | none => b

/-- `feature in d or feature.unique_name() in d`, and then `d.get(feature) or d.get(feature.unique_name())`
(`feature_descriptions.py` 35-38, 137-139). Features are looked up by the hash of `name + entity.id` (`feature_base.py`
170-174); `==` on a key with that hash builds a feature, which counts as true, and asserts that the entities agree. Different
texts are taken to have different hashes. `none`: no entry. -/
def customFor (C : GCustom) (entity name : String) : Except PyErr (Option (Option String)) :=
  match C.features.find? fun k => k.1.2 ++ k.1.1 == name ++ entity with
  | some k =>
    if k.1.1 = entity then .ok (some (orGet (some k.2) (C.names.lookup (entity ++ ": " ++ name)))) else .error .assertionError
  | none => .ok ((C.names.lookup (entity ++ ": " ++ name)).map some)

/-- `template_override` (`feature_descriptions.py` 70-73). -/
def templateFor (C : GCustom) (p : GPrim) : Option (List Char ⊕ List (List Char)) :=
  let byName := match p.name with | some s => C.primNames.lookup s | none => none
  match C.prims.lookup p.ident with
  | some t => match truthyTemplate (some t) with | some t => some t | none => byName
  | none => byName

/-- The group-by phrase (`feature_descriptions.py` 85-88). -/
def forEach : Option String → String
  | none => ""
  | some g => "for each " ++ (if g.toList.take 4 = ['t', 'h', 'e', ' '] then String.ofList (g.toList.drop 4) else g)

/-- `" ".join([phrase for phrase in phrases if phrase != ''])` (`feature_descriptions.py` 109-110). -/
def joinPhrases (l : List String) : String := " ".intercalate (l.filter fun s => s != "")

/-- The phrase of an aggregation (`feature_descriptions.py` 93-98). -/
def entityPhrase (child : String) : Option String → String
  | some s => "of the previous " ++ s ++ " of \"" ++ child ++ "\""
  | none => "of all instances of \"" ++ child ++ "\""

/-- The primitive of a feature (`feature_base.py` 352, 433, 790). -/
def GKind.prim : GKind → GPrim
  | .transform p | .groupby p | .agg p _ _ _ => p
  | _ => .base

/-- `get_aggregation_groupby` (`feature_descriptions.py` 132-141). -/
def groupPhrase (C : GCustom) (entity index : String) : Except PyErr (Option String) :=
  (customFor C entity index).map fun c => match c with
    | some d => d
    | none => some ("\"" ++ index ++ "\" in \"" ++ entity ++ "\"")

/-- What follows the inputs (`feature_descriptions.py` 64-112). `kind` and `slice` are of the feature, `whole` is the kind of the
feature that a slice is of; `inputs` are all input descriptions, `wh` is the where phrase, computed last. -/
def finish (upper : String → String) (C : GCustom) (kind whole : GKind) (entity : String) (slice : Option Nat)
    (inputs : List (Option String)) (wh : Except PyErr String) : Except PyErr (Option String) :=
  let group : Option String := match kind with | .groupby _ => (inputs.getLast?).join | _ => none
  let inputs := match kind with | .groupby _ => inputs.dropLast | _ => inputs
  (primDescription upper whole.prim inputs slice (templateFor C whole.prim)).bind fun p =>
    (match whole with | .agg _ _ index _ => groupPhrase C entity index | _ => .ok group).bind fun group =>
      wh.bind fun wh =>
        .ok (some (joinPhrases [p, match whole with | .agg _ child _ previous => entityPhrase child previous | _ => "", wh, forEach group]))

mutual
/-- `generate_description` (`feature_descriptions.py` 33-112) for `suffix = none`. With a suffix this is the loop of
`get_direct_description` (`feature_descriptions.py` 115-129): direct features are followed without looking for custom
descriptions, and the suffix is put behind the description of the first feature that is not direct. -/
def generate (upper : String → String) (C : GCustom) (suffix : Option String) : GFeat → Except PyErr (Option String)
  | .mk kind entity name bases wh =>
    match suffix, kind with
    | some s, .direct parent => generateHead upper C (" the instance of \"" ++ parent ++ "\" associated with" ++ s) bases
    | _, _ =>
      ((customFor C entity name).bind fun c =>
        match c with
        | some d => .ok d
        | none =>
          match kind with
          | .identity d => .ok (some d)
          | .direct parent =>
            generateHead upper C (" the instance of \"" ++ parent ++ "\" associated with this instance of \"" ++ entity ++ "\"") bases
          | .slice n => generateSlice upper C n bases
          | _ => (generateList upper C bases).bind fun inputs => finish upper C kind kind entity none inputs (generateWhere upper C wh)).bind
        fun d =>
          match suffix with
          | none => .ok d
          | some s => match d with | some d => .ok (some (d ++ " for" ++ s)) | none => .error .typeError
/-- The first base feature of a direct feature. -/
def generateHead (upper : String → String) (C : GCustom) (s : String) : List GFeat → Except PyErr (Option String)
  | [] => .error .indexError
  | f :: _ => generate upper C (some s) f
/-- The loop over the inputs (`feature_descriptions.py` 58-62). -/
def generateList (upper : String → String) (C : GCustom) : List GFeat → Except PyErr (List (Option String))
  | [] => .ok []
  | f :: fs => (generate upper C none f).bind fun d => (generateList upper C fs).bind fun ds => .ok (d :: ds)
/-- A slice: the inputs are those of the feature it is a slice of (`feature_descriptions.py` 55-56, 74, 78-79). -/
def generateSlice (upper : String → String) (C : GCustom) (n : Nat) : List GFeat → Except PyErr (Option String)
  | [] => .error .indexError
  | .mk kind entity _ bases wh :: _ =>
    (generateList upper C bases).bind fun inputs => finish upper C (.slice n) kind entity (some n) inputs (generateWhere upper C wh)
/-- The where phrase (`feature_descriptions.py` 101-106): the condition is described by its first input and `primitive.value`. -/
def generateWhere (upper : String → String) (C : GCustom) : List GFeat → Except PyErr String
  | [] => .ok ""
  | .mk kind _ _ bases _ :: _ => generateCondition upper C kind.prim bases
/-- See `generateWhere`. -/
def generateCondition (upper : String → String) (C : GCustom) (p : GPrim) : List GFeat → Except PyErr String
  | [] => .error .indexError
  | f :: _ => (generate upper C none f).bind fun d =>
      match p.value with
      | some v => .ok ("where " ++ argText d ++ " is " ++ v)
      | none => .error .attributeError
end

/-- `describe_feature` (`feature_descriptions.py` 6-30), dictionaries given. -/
def describeFeature (upper : String → String) (C : GCustom) (f : GFeat) : Except PyErr String :=
  (generate upper C none f).bind fun d => match d with
    | none => .error .typeError
    | some s => .ok (upper (String.ofList (s.toList.take 1)) ++ String.ofList (s.toList.drop 1) ++ ".")

end FT
