import Verif.Model.Disk
import Verif.Model.FeatureFile
/-!
# Where entity sets and features are saved

Models `write_data_description` and `read_entityset` with `create_archive` (`entityset/serialize.py` 133-176,
`entityset/deserialize.py` 219-247), the saving and loading of features at a location (`features_serializer.py` 81-95,
`features_deserializer.py` 84-102) and the tests on paths (`utils/wrangle.py` 158-179).  A path is taken to be absolute and
written in one way.  An archive is what it holds under each name; `smart_open` and `tarfile` are taken to keep that.
Credentials (`get_transport_params`) are left out.
-/
namespace FT

/-- `_is_s3` (`wrangle.py` 158-163). -/
def isS3 (path : String) : Bool := "s3://".toList.isPrefixOf path.toList

/-- `_is_url` (`wrangle.py` 166-171). -/
def isUrl (path : String) : Bool := "http".toList.isPrefixOf path.toList

/-- The first half of `_is_local_tar` (`wrangle.py` 174-179). -/
def isTarName (path : String) : Bool := ".tar".toList.isSuffixOf path.toList

/-- What is where: directories and archives on the disk, and archives elsewhere. -/
structure Places (β : Type) where
  dirs : String → Option (Disk β)
  tars : String → Option (Disk β)
  remote : String → Option (Disk β)

/-- A place gets a new content. -/
def putAt {α : Type} (f : String → Option α) (path : String) (a : α) : String → Option α := fun q => if q = path then some a else f q

/-- `create_archive` (`serialize.py` 169-176): the description and the directory `data`. -/
def packed {β : Type} (d : Disk β) : Disk β := fun g => if g = descriptionFile || "data/".toList.isPrefixOf g.toList then d g else none

/-- `write_data_description` (`serialize.py` 133-156). A directory cannot be made where there is a file. -/
def writeTo {β : Type} (codec : Codec β) (format : String) (es : ESet) (path : String) (p : Places β) : Places β × Option PyErr :=
  if isS3 path then
    match saveEntityset codec format es with
    | .error e => (p, some e)
    | .ok steps => ({ p with remote := putAt p.remote path (packed (runSteps (fun _ => none) steps)) }, none)
  else if isUrl path then (p, some .valueError)
  else if (p.tars path).isSome then (p, some .other)
  else
    let d := (p.dirs path).getD fun _ => none
    match saveEntityset codec format es with
    | .error e => ({ p with dirs := putAt p.dirs path d }, some e)
    | .ok steps => ({ p with dirs := putAt p.dirs path (runSteps d steps) }, none)

/-- `read_entityset` (`deserialize.py` 219-247); `none`: reading raises. `tarfile.is_tarfile` raises for a directory and for
what does not exist. -/
def readFrom {β : Type} (codec : Codec β) (path : String) (p : Places β) : Option (Desc × List (String × DataFrame)) :=
  if isUrl path || isS3 path then (p.remote path).bind (readSaved codec)
  else if isTarName path then
    match p.dirs path with
    | some _ => none
    | none => (p.tars path).bind (readSaved codec)
  else (p.dirs path).bind (readSaved codec)

/-- What JSON text may say: saved features, or something else. -/
inductive JsonText where
  | features (f : FeatureFile)
  | other

/-- Texts on the disk and elsewhere. -/
structure TextPlaces where
  files : String → Option String
  remote : String → Option String

/-- `json.dumps` and `json.loads`; `none`: not JSON. -/
structure JsonLib where
  dumps : FeatureFile → String
  loads : String → Option JsonText

/-- `FeaturesSerializer.save` (`features_serializer.py` 81-95): the text is returned, or written at a location. -/
def saveAt (json : JsonLib) (f : FeatureFile) (location : Option String) (p : TextPlaces) : TextPlaces × Except PyErr (Option String) :=
  match location with
  | none => (p, .ok (some (json.dumps f)))
  | some path =>
    if isUrl path then (p, .error .valueError)
    else if isS3 path then ({ p with remote := putAt p.remote path (json.dumps f) }, .ok none)
    else ({ p with files := putAt p.files path (json.dumps f) }, .ok none)

/-- The dictionary the features are made from (`features_deserializer.py` 77-80): anything but a dictionary raises. -/
def asFeatures : Option JsonText → Option FeatureFile
  | some (.features f) => some f
  | _ => none

/-- `FeaturesDeserializer.load` (`features_deserializer.py` 84-102) of a text: the features themselves or else where they are.
`none`: loading raises. -/
def loadText (json : JsonLib) (text : String) (p : TextPlaces) : Option FeatureFile :=
  match json.loads text with
  | some j => asFeatures (some j)
  | none =>
    if isUrl text || isS3 text then (p.remote text).bind fun t => asFeatures (json.loads t)
    else (p.files text).bind fun t => asFeatures (json.loads t)

end FT
