import Verif.Model.EntitySet
/-!
# Pictures and texts of entity sets

Models `EntitySet.plot` and `EntitySet.__repr__` (`entityset/entityset.py` 927-972 and 211-231), and the writing of a picture to a
file, which is the same for `plot`, `graph_feature` and `graph_variable_types` (`utils/plot_utils.py` 24-49). Of `graphviz` the
following is taken over: `node` draws a box, `edge` an arrow between two boxes where what follows a colon in an end is not part of
the name of the box, and `render(path)` writes the file `path.format`. The styles and the test of the installation
(`check_graphviz`) are left out.
-/
namespace FT

/-- The boxes, by name and text, and the arrows: from, to and text. -/
structure Picture where
  boxes : List (String × String)
  arrows : List (String × String × String)
deriving DecidableEq

/-- Lines 952-956: the text of the box of an entity; the rows of a Dask entity are not counted. `\l` ends a line. -/
def boxLabel (dask : Bool) (x : Entity) : String :=
  let variables := String.intercalate "\\l" (x.vars.map fun v => v.id ++ " : " ++ v.type)
  if dask then "{" ++ x.id ++ " |" ++ variables ++ "\\l}"
  else
    let nrows := x.df.rows.length
    "{" ++ x.id ++ " (" ++ Nat.repr nrows ++ " row" ++ (if nrows > 1 then "s" else "") ++ ")|" ++ variables ++ "\\l}"

/-- Lines 962-966. -/
def arrowLabel (r : Relationship) : String := if r.parentV = r.childV then r.parentV else r.parentV ++ " -> " ++ r.childV

/-- The box an end of an arrow belongs to (`graphviz`). -/
def arrowEnd (s : String) : String := String.ofList (s.toList.takeWhile fun c => c != ':')

/-- Lines 944-968: the picture of an entity set. -/
def drawEntitySet (dask : String → Bool) (es : ESet) : Picture where
  boxes := es.entities.map fun x => (x.id, boxLabel (dask x.id) x)
  arrows := es.rels.map fun r => (arrowEnd r.childE, arrowEnd r.parentE, arrowLabel r)

/-- The argument `to_file`: none, text or a path object. -/
inductive ToFile where
  | none | text (s : String) | path (s : String)
deriving DecidableEq

/-- `if to_file`: there is a file to write. -/
def ToFile.given : ToFile → Bool
  | .none => false
  | .text s => s != ""
  | .path _ => true

/-- `str(to_file)` (`plot_utils.py` 27). -/
def ToFile.str : ToFile → String
  | .none => "None"
  | .text s => s
  | .path s => s

/-- `to_file.split('.')[-1]` (`plot_utils.py` 29-34): what follows the last dot. -/
def afterLastDot (s : String) : String := String.ofList (s.toList.reverse.takeWhile fun c => c != '.').reverse

/-- `get_graphviz_format` (`plot_utils.py` 24-41). -/
def pictureFormat (formats : List String) (f : ToFile) : Except PyErr (Option String) :=
  if f.given then
    if '.' ∈ f.str.toList then
      if afterLastDot f.str ∈ formats then .ok (some (afterLastDot f.str)) else .error .valueError
    else .error .valueError
  else .ok none

/-- `save_graph` (`plot_utils.py` 44-49): the file that is written. A path object cannot be shortened by a slice. -/
def savedAs (f : ToFile) (format : String) : Except PyErr String :=
  match f with
  | .text s => .ok (String.ofList (s.toList.take (s.toList.length - (format.toList.length + 1))) ++ "." ++ format)
  | _ => .error .typeError

/-- `plot(to_file)` (lines 940-972): the picture and the file it is written to. -/
def plotEntitySet (formats : List String) (dask : String → Bool) (es : ESet) (f : ToFile) : Except PyErr (Picture × Option String) :=
  match pictureFormat formats f with
  | .error e => .error e
  | .ok Option.none => .ok (drawEntitySet dask es, Option.none)
  | .ok (some format) =>
    match savedAs f format with
    | .error e => .error e
    | .ok file => .ok (drawEntitySet dask es, some file)

/-- `repr(es)` (lines 211-231) for data frames of pandas. -/
def reprEntitySet (id : String) (es : ESet) : String :=
  let out := "Entityset: " ++ id ++ "\n" ++ "  Entities:"
  let out := es.entities.foldl (fun out x => out ++ ("\n    " ++ x.id ++ " [Rows: " ++ Nat.repr x.df.rows.length ++ ", Columns: " ++ Nat.repr x.df.cols.length ++ "]")) out
  let out := out ++ "\n  Relationships:"
  let out := if es.rels.length = 0 then out ++ "\n    No relationships" else out
  es.rels.foldl (fun out r => out ++ ("\n    " ++ r.childE ++ "." ++ r.childV ++ " -> " ++ r.parentE ++ "." ++ r.parentV)) out

end FT
