import Verif.Model.Listing
import Verif.Spec.DfsInput
/-!
# What is listed and loaded
-/
namespace FT.Spec

/-- A type occurs in `input_types`, in a list or by itself. -/
inductive TakesType (n : String) : InputSig → Prop
  | type : TakesType n (.type n)
  | list {s l} : s ∈ l → TakesType n s → TakesType n (.list l)

/-- The first line of a text. -/
def FirstLineOf (s l : String) : Prop :=
  '\n' ∉ l.toList ∧ (s = l ∨ ∃ rest : String, s = l ++ "\n" ++ rest)

/-- What a row says about a class. -/
structure RowFor (info : LibClass → PrimInfo) (c : LibClass) (r : PrimRow) : Prop where
  dask : r.dask = (info c).dask
  koalas : r.koalas = (info c).koalas
  doc : ∀ d, (info c).doc = some d → FirstLineOf d r.description
  noDoc : (info c).doc = none → r.description = ""
  inputs : ∃ l : List String, l.Nodup ∧ (∀ n, n ∈ l ↔ ∃ s ∈ (info c).inputs, TakesType n s) ∧ r.validInputs = String.intercalate ", " l
  ret : r.returnType = (info c).ret

/-- A file name that may hold a primitive: it ends with `.py` and starts neither with a dot nor with two underscores. -/
structure PrimitiveFileName (f : List Char) : Prop where
  py : ∃ stem, f = stem ++ ['.', 'p', 'y']
  hidden : ∀ rest, f ≠ '.' :: rest
  dunder : ∀ rest, f ≠ '_' :: '_' :: rest

/-- The path of a file in a directory. -/
inductive PathIn (dir f : List Char) : List Char → Prop
  | here : dir = [] → PathIn dir f f
  | slash {d} : dir = d ++ ['/'] → PathIn dir f (dir ++ f)
  | plain {d c} : dir = d ++ [c] → c ≠ '/' → PathIn dir f (dir ++ '/' :: f)

/-- A name of a module holds a primitive class other than the two bases. -/
def HoldsPrimitive (v : ModVar) : Prop := v.cls ≠ none ∧ v.primitive = true ∧ v.base = false

/-- An entry of a list that is reached registers a class under its name: nothing before it is anything but a class. -/
def RegistersItem (items : List EntryItem) (n : String) (c : LibClass) : Prop :=
  ∃ pre post, items = pre ++ .cls n c :: post ∧ (∀ x ∈ pre, ∃ m d, x = .cls m d) ∧ (c.aggregation = true ∨ c.transform = true)

/-- Some library registers a class under a name. -/
def RegisteredAs (eps : List (Option (List EntryItem))) (n : String) (c : LibClass) : Prop :=
  ∃ items, some items ∈ eps ∧ RegistersItem items n c

end FT.Spec
