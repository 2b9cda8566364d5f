import Verif.Model.EntitySet
/-! # What is expected of entity sets and their histories -/
namespace FT.Spec

/-- The relationships are well-formed: entity ids are distinct, no relationship is listed twice, and each one names
entities that exist, the index of the parent, and a column other than the index of the child. -/
structure SchemaOk (es : ESet) : Prop where
  ids : (es.entities.map Entity.id).Nodup
  once : es.rels.Nodup
  linked : ∀ r ∈ es.rels, ∃ p ∈ es.entities, ∃ c ∈ es.entities,
    p.id = r.parentE ∧ c.id = r.childE ∧ p.index = r.parentV ∧ c.index ≠ r.childV

/-- Every entity has distinct index values. -/
def IndexUnique (es : ESet) : Prop := ∀ x ∈ es.entities, (x.df.rows.map fun r => r x.index).Nodup

/-- The calls of a history. -/
inductive Op where
  | create (a : EntityArgs)
  | relate (r : Relationship)
  | normalize (a : NormArgs)
  | delete (e : String) (vs : List String)
  | convert (e v t : String)
  | update (e : String) (df : DataFrame) (sorted : Bool)
  | describe (e v d : String)
  | readMetadata

/-- The entity set after a call, and the exception. -/
def Op.run (lib : Lib) (es : ESet) : Op → ESet × Option PyErr
  | .create a => entityFromDataframe lib es a
  | .relate r => addRelationship lib es r
  | .normalize a => normalizeEntity lib es a
  | .delete e vs => deleteVariables es e vs
  | .convert e v t => convertVariableType es e v t
  | .update e df sorted => updateData lib es e df sorted
  | .describe e v d => setDescription es e v d
  | .readMetadata => ((FT.readMetadata es).1, none)

/-- The call does not give a new entity the id of an existing one. -/
def Op.NewId (es : ESet) : Op → Prop
  | .create a => a.id ∉ es.entities.map Entity.id
  | .normalize a => a.new ∉ es.entities.map Entity.id
  | _ => True

/-- The entity sets that permitted calls can lead to from the empty one, each call succeeding or failing. -/
inductive Reached (lib : Lib) (permitted : ESet → Op → Prop) : ESet → Prop
  | start : Reached lib permitted ESet.empty
  | call {es} (h : Reached lib permitted es) (op : Op) (hp : permitted es op) : Reached lib permitted (op.run lib es).1

/-- The call succeeds if it replaces the data of an entity. -/
def Op.UpdateSucceeds (lib : Lib) (es : ESet) : Op → Prop
  | .update e df sorted => (updateData lib es e df sorted).2 = none
  | _ => True

/-- The call is one after which metadata is expected to be made anew: not the deletion or conversion of a variable of an
entity, and succeeding if it relates entities or replaces data. -/
def Op.Tracked (lib : Lib) (es : ESet) : Op → Prop
  | .delete _ _ => False
  | .convert _ _ _ => False
  | .update e df sorted => (updateData lib es e df sorted).2 = none
  | .relate r => (addRelationship lib es r).2 = none
  | _ => True

/-- Data conversion leaves the cells and columns as they are. -/
def KeepsData (lib : Lib) : Prop := ∀ f types g, lib.convert f types = .ok g → g.toTable = f.toTable

/-- `n` is what normalising `x` by the column `key` should give: a row for each value of the key, with the values of the
first row of `x` with this key in the carried columns. -/
structure IsNormalised (x n : Entity) (key : String) (carried : List String) : Prop where
  index : n.index = key
  cols : ∀ c ∈ key :: carried, c ∈ n.df.cols
  distinct : (n.df.rows.map fun r => r key).Nodup
  values : ∀ v, v ∈ n.df.rows.map (fun r => r key) ↔ v ∈ x.df.rows.map (fun r => r key)
  first : ∀ r ∈ n.df.rows, ∃ s, x.df.rows.find? (fun s => decide (s key = r key)) = some s ∧ ∀ c ∈ carried, r c = s c

end FT.Spec
