import Verif.Model.ListAux
/-!
# Variable types and their names

Models `camel_to_snake` and `find_descendents` (`utils/gen_utils.py` 34-45, 111-113), `ClassNameDescriptor` (`variable_types/variable.py`
9-14), `find_variable_types` and `list_variable_types` (`variable_types/utils.py` 12-47), the reading of type strings in
`Entity._create_variables` (`entity.py` 226-237) and of saved types in `description_to_variable` (`deserialize.py` 27-33). Class names
are texts without line breaks, and lower case is that of ASCII.
-/
namespace FT

/-- `[A-Z]` -/
def upperCh (c : Char) : Bool := 'A' ≤ c && c ≤ 'Z'

/-- `[a-z]` -/
def lowerCh (c : Char) : Bool := 'a' ≤ c && c ≤ 'z'

/-- `[a-z0-9]` -/
def lowerNumCh (c : Char) : Bool := lowerCh c || ('0' ≤ c && c ≤ '9')

/-- `re.sub('(.)([A-Z][a-z]+)', r'\1_\2', s)` (`gen_utils.py` 112): matches are looked for from left to right and do not overlap.
`word` says that the last match has not ended yet: its letters `[a-z]+` are taken first. -/
def subWord : Bool → List Char → List Char
  | true, c :: s => if lowerCh c then c :: subWord true s else
      match s with
      | u :: l :: t => if upperCh u && lowerCh l then c :: '_' :: u :: l :: subWord true t else c :: subWord false (u :: l :: t)
      | s => c :: s
  | false, c :: s =>
      match s with
      | u :: l :: t => if upperCh u && lowerCh l then c :: '_' :: u :: l :: subWord true t else c :: subWord false (u :: l :: t)
      | s => c :: s
  | _, [] => []

/-- `re.sub('([a-z0-9])([A-Z])', r'\1_\2', s)` (`gen_utils.py` 113). -/
def subUpper : List Char → List Char
  | c :: u :: s => if lowerNumCh c && upperCh u then c :: '_' :: u :: subUpper s else c :: subUpper (u :: s)
  | s => s

/-- `camel_to_snake` (`gen_utils.py` 111-113). -/
def camelToSnake (s : List Char) : List Char := (subUpper (subWord false s)).map Char.toLower

/-- A variable class: which one it is, `__name__` and `__doc__`. -/
structure VClass where
  uid : Nat
  name : String
  doc : Option String
deriving DecidableEq

/-- `cls.type_string` (`variable.py` 9-14, 33). -/
def VClass.typeString (c : VClass) : String := String.ofList (camelToSnake c.name.toList)

/-- A class with its `__subclasses__()`; a class with two bases is below both. -/
inductive VTree where
  | node (c : VClass) (subs : List VTree)

mutual
/-- `find_descendents` (`gen_utils.py` 34-45). -/
def VTree.walk : VTree → List VClass
  | .node c subs => c :: VTree.walkL subs
/-- The loop over the subclasses (`gen_utils.py` 43-45). -/
def VTree.walkL : List VTree → List VClass
  | [] => []
  | t :: ts => t.walk ++ VTree.walkL ts
end

/-- The classes there are: all variable classes below `Variable`, and which ones are `Variable` and `Text`. -/
structure VTypes where
  root : VClass
  text : VClass
  subs : List VTree

/-- `d[k] = v`: the place of a key is where it was first put. -/
def putKey {β : Type} (k : String) (v : β) : List (String × β) → List (String × β)
  | [] => [(k, v)]
  | (k', v') :: d => if k' = k then (k, v) :: d else (k', v') :: putKey k v d

/-- `find_variable_types` (`variable_types/utils.py` 12-25). -/
def findVariableTypes (T : VTypes) : List (String × VClass) :=
  ((VTree.node T.root T.subs).walk.filter fun c => c != T.root && c != T.text).foldl (fun d c => putKey c.typeString c d) []

/-- A row of `list_variable_types`. -/
structure VRow where
  name : String
  typeString : String
  description : Option String
deriving DecidableEq

/-- `list_variable_types` (`variable_types/utils.py` 28-47). -/
def listVariableTypes (T : VTypes) : List VRow :=
  ((findVariableTypes T).map Prod.snd).zipWith (fun c s => ⟨c.name, s, c.doc⟩) ((findVariableTypes T).map Prod.fst)

/-- The class for a type string in `variable_types` (`entity.py` 226-237): `Text` is put on top; `string_to_class_map['unknown']` can be
missing only if no class has this type string. -/
def typeFor (T : VTypes) (s : String) : Option VClass :=
  match (putKey T.text.typeString T.text (findVariableTypes T)).lookup s with
  | some c => some c
  | none => (putKey T.text.typeString T.text (findVariableTypes T)).lookup "unknown"

/-- What is saved of the type of a variable (`variable.py` 127-129). -/
def saveType (c : VClass) : String := c.typeString

/-- The type of a variable that was saved and loaded again (`deserialize.py` 27-29, 57-64; `entity.py` 226-237). -/
def reloadType (T : VTypes) (c : VClass) : Option VClass := typeFor T (saveType c)

end FT
