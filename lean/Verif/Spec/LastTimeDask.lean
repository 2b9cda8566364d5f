import Verif.Spec.LastTime
/-! # When last time indexes on Dask are what is documented -/
namespace FT.Spec

/-- At most one relationship between two entities, all times after 1800, and index values that are there and tell the rows of
an entity apart. Rows that were never observed may stand beside rows that were. -/
structure Dated (es : ESet) : Prop where
  single : ∀ r ∈ es.rels, ∀ r' ∈ es.rels, r.parentE = r'.parentE → r.childE = r'.childE → r = r'
  times : ∀ x ∈ es.entities, ∀ t, x.timeIndex = some t → ∀ r ∈ x.df.rows, r t = .null ∨ ∃ m, r t = .num m ∧ -5364662400000000000 < m
  keys : ∀ x ∈ es.entities, (x.df.rows.map fun r => r x.index).Nodup
  present : ∀ x ∈ es.entities, ∀ r ∈ x.df.rows, r x.index ≠ .null

end FT.Spec
