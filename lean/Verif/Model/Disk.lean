import Verif.Model.Serialize
/-!
# Files: saving entity sets and saving progress

Models `entityset/serialize.py` 79-166, `entityset/deserialize.py` 124-216 and `save_csv_decorator`
(`computational_backends/utils.py` 33-52) on a disk that is changed one step at a time: opening a file for writing empties
it, then it grows byte by byte, and `os.rename` replaces the target at once.  A crash is a stop after any number of steps.
Directories are part of the file names; two names are taken to be two files (no `..`, no links).  The encodings are
parameters (`Codec`), for any type of bytes.
-/
namespace FT

/-- What is stored in a file name. -/
abbrev Disk (β : Type) := String → Option (List β)

/-- One change of the disk. -/
inductive DiskStep (β : Type) where
  | create (file : String)
  | append (file : String) (b : β)
  | rename (src dst : String)

/-- The effect of a step. -/
def DiskStep.run {β : Type} (d : Disk β) : DiskStep β → Disk β
  | .create f => fun g => if g = f then some [] else d g
  | .append f b => fun g => if g = f then (d f).map (· ++ [b]) else d g
  | .rename s t => fun g => if g = t then d s else if g = s then none else d g

/-- The effect of steps one after the other. -/
def runSteps {β : Type} (d : Disk β) (steps : List (DiskStep β)) : Disk β := steps.foldl DiskStep.run d

/-- Writing a file: open for writing and write the bytes. -/
def writeFile {β : Type} (f : String) (bytes : List β) : List (DiskStep β) := .create f :: bytes.map (.append f)

/-- The content of `data_description.json`: the description, and for every entity where and in which format its data is
(`serialize.py` 46-52, 130, 163). -/
structure Saved where
  desc : Desc
  loading : List (String × String × String)

/-- The encodings: `json.dump` and `json.load`, and the writers and readers of data (`serialize.py` 103-129, `deserialize.py`
134-197, where the reader also uses the description of the entity). `none`: the reader raises. -/
structure Codec (β : Type) where
  dump : Saved → List β
  load : List β → Option Saved
  write : String → DataFrame → List β
  read : String → EntDesc → List β → Option DataFrame

/-- `FORMATS` (`serialize.py` 15). -/
def formats : List String := ["csv", "pickle", "parquet"]

/-- The location of the data of an entity (`serialize.py` 96-97), `/` being the separator. -/
def location (id format : String) : String := "data/" ++ (id ++ ("." ++ format))

/-- `data_description.json` (`serialize.py` 164). -/
def descriptionFile : String := "data_description.json"

/-- The content of the description file after all data is written (`serialize.py` 160-163). -/
def savedOf (es : ESet) (format : String) : Saved :=
  { desc := describe es, loading := es.entities.map fun x => (x.id, location x.id format, format) }

/-- `dump_data_description` (`serialize.py` 159-166): the steps of saving a pandas entity set; data first, description last. -/
def dumpSteps {β : Type} (codec : Codec β) (format : String) (es : ESet) : List (DiskStep β) :=
  (es.entities.flatMap fun x => writeFile (location x.id format) (codec.write format x.df)) ++
    writeFile descriptionFile (codec.dump (savedOf es format))

/-- `to_csv`, `to_pickle`, `to_parquet` through `write_data_description` (`serialize.py` 133-156) for local paths: an unknown
format is refused when the first entity is written. -/
def saveEntityset {β : Type} (codec : Codec β) (format : String) (es : ESet) : Except PyErr (List (DiskStep β)) :=
  if es.entities.isEmpty || formats.contains format then .ok (dumpSteps codec format es) else .error .valueError

/-- `read_entity_data` (`deserialize.py` 124-197). -/
def readData {β : Type} (codec : Codec β) (d : Disk β) (s : Saved) (x : EntDesc) : Option DataFrame :=
  match s.loading.lookup x.id with
  | none => none
  | some (file, format) => match d file with
    | none => none
    | some bytes => codec.read format x bytes

/-- The data of all entities, in the order of the description (`deserialize.py` 93-98). -/
def readAll {β : Type} (codec : Codec β) (d : Disk β) (s : Saved) : List EntDesc → Option (List (String × DataFrame))
  | [] => some []
  | x :: xs => match readData codec d s x, readAll codec d s xs with
    | some df, some rest => some ((x.id, df) :: rest)
    | _, _ => none

/-- `read_data_description` (`deserialize.py` 200-216) and the data it refers to: what an entity set is rebuilt from (see
`rebuild`). `none`: reading raises. -/
def readSaved {β : Type} (codec : Codec β) (d : Disk β) : Option (Desc × List (String × DataFrame)) :=
  match d descriptionFile with
  | none => none
  | some bytes => match codec.load bytes with
    | none => none
    | some s => (readAll codec d s s.desc.entities).map fun data => (s.desc, data)

/-! ### Saving progress -/

/-- A `pd.Timestamp` to microseconds. -/
structure Stamp where
  year : Nat
  month : Nat
  day : Nat
  hour : Nat
  minute : Nat
  second : Nat
  micro : Nat
deriving DecidableEq, Repr

/-- A number with leading zeros. -/
def padDigits : Nat → Nat → List Char
  | 0, _ => []
  | w + 1, n => padDigits w (n / 10) ++ [Char.ofNat (48 + n % 10)]

/-- `%I`: the hour on a 12-hour clock. -/
def hour12 (h : Nat) : Nat := if h % 12 = 0 then 12 else h % 12

/-- `'ft_' + time.strftime("%Y_%m_%d_%I-%M-%S-%f") + '.csv'` (`utils.py` 41) for years with four digits. -/
def progressName (t : Stamp) : List Char :=
  ['f', 't', '_'] ++ padDigits 4 t.year ++ ['_'] ++ padDigits 2 t.month ++ ['_'] ++ padDigits 2 t.day ++ ['_'] ++ padDigits 2 (hour12 t.hour) ++
    ['-'] ++ padDigits 2 t.minute ++ ['-'] ++ padDigits 2 t.second ++ ['-'] ++ padDigits 6 t.micro ++ ['.', 'c', 's', 'v']

/-- The file of a chunk in the directory `save_progress` (`utils.py` 42; the directory is left out of names). -/
def progressFile (t : Stamp) : String := String.ofList (progressName t)

/-- The temporary file of a chunk (`utils.py` 43-46). -/
def tempFile (t : Stamp) : String := String.ofList ("temp/".toList ++ progressName t)

/-- What the wrapped function is called with: a pandas timestamp, or `datetime.now()`, or a number (`calculate_feature_matrix.py`
339-343, 415). -/
inductive ChunkTime where
  | stamp (t : Stamp)
  | now
  | number (n : Int)

/-- One call of a function wrapped with `save_csv_decorator(save_progress)` (`utils.py` 36-50) whose result is written as
`bytes`: only pandas timestamps have `to_pydatetime`. -/
def saveProgress {β : Type} (time : ChunkTime) (bytes : List β) : Except PyErr (List (DiskStep β)) :=
  match time with
  | .stamp t => .ok (writeFile (tempFile t) bytes ++ [.rename (tempFile t) (progressFile t)])
  | _ => .error .attributeError

/-- The steps of a run over chunks, up to the first that fails. -/
def saveChunks {β : Type} : List (ChunkTime × List β) → List (DiskStep β)
  | [] => []
  | (t, b) :: rest => match saveProgress t b with
    | .ok steps => steps ++ saveChunks rest
    | .error _ => []

end FT
