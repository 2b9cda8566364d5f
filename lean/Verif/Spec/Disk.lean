import Verif.Model.Disk
/-! # What is expected of files -/
namespace FT.Spec

/-- The description file is complete or cannot be read: loading gives what was dumped, and a description cut short is not
valid JSON. -/
structure Lawful {β : Type} (codec : Codec β) : Prop where
  whole : ∀ s, codec.load (codec.dump s) = some s
  cut : ∀ s bytes, bytes <+: codec.dump s → bytes ≠ codec.dump s → codec.load bytes = none

/-- The format keeps the data of an entity set. -/
def Kept {β : Type} (codec : Codec β) (format : String) (es : ESet) : Prop :=
  ∀ x ∈ es.entities, codec.read format (describeEntity x) (codec.write format x.df) = some x.df

/-- What is read is this entity set: its description, and the data of all its entities. -/
structure IsSaved (r : Desc × List (String × DataFrame)) (es : ESet) : Prop where
  desc : r.1 = describe es
  ids : r.2.map Prod.fst = (describe es).entities.map EntDesc.id
  data : ∀ x ∈ es.entities, r.2.lookup x.id = some x.df

/-- A time as a calendar gives it. -/
structure Stamp.Valid (t : Stamp) : Prop where
  year : t.year < 10000
  month : t.month < 100
  day : t.day < 100
  hour : t.hour < 24
  minute : t.minute < 60
  second : t.second < 60
  micro : t.micro < 1000000

end FT.Spec
