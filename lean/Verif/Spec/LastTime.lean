import Verif.Model.EntitySet
/-! # What a last time index should be -/
namespace FT.Spec

/-- Row `r` of the entity was observed at time `m`: that is its own time, or the time of a row that belongs to it through a
relationship, or of a row that belongs to that one, and so on. -/
inductive HasTime (es : ESet) : String → Row → Int → Prop
  | own {x : Entity} {r : Row} {t : String} {m : Int} (hx : x ∈ es.entities) (hr : r ∈ x.df.rows) (ht : x.timeIndex = some t)
      (hm : r t = .num m) : HasTime es x.id r m
  | child {x c : Entity} {rel : Relationship} {r s : Row} {m : Int} (hx : x ∈ es.entities) (hr : r ∈ x.df.rows) (hc : c ∈ es.entities)
      (hrel : rel ∈ es.rels) (hp : rel.parentE = x.id) (hch : rel.childE = c.id) (hs : s ∈ c.df.rows) (hl : s rel.childV = r x.index)
      (h : HasTime es c.id s m) : HasTime es x.id r m

/-- The latest of the times in a set, null if there is none. -/
def IsLatest (P : Int → Prop) : Val → Prop
  | .null => ∀ m, ¬ P m
  | .num m => P m ∧ ∀ k, P k → k ≤ m
  | _ => False

/-- A last time index as documented: for every row its index value and the last time it or a descendant was observed. -/
def LtiOk (es : ESet) (x : Entity) (l : List (Val × Val)) : Prop :=
  ∃ v : Row → Val, l = x.df.rows.map (fun r => (r x.index, v r)) ∧ ∀ r ∈ x.df.rows, IsLatest (HasTime es x.id r) (v r)

/-- Entity ids are distinct and relationships name entities. -/
structure Wired (es : ESet) : Prop where
  ids : (es.entities.map Entity.id).Nodup
  parents : ∀ r ∈ es.rels, r.parentE ∈ es.entities.map Entity.id
  children : ∀ r ∈ es.rels, r.childE ∈ es.entities.map Entity.id

/-- Following relationships from parents to children ends. -/
def ChildrenEnd (es : ESet) : Prop := ∃ rank : String → Nat, ∀ r ∈ es.rels, rank r.childE < rank r.parentE

/-- The conditions under which last time indexes are what is documented: at most one relationship between two entities, all
times after 1800, and, of the child rows of a parent row, all were observed at some time or none was. -/
structure Orderly (es : ESet) : Prop where
  single : ∀ r ∈ es.rels, ∀ r' ∈ es.rels, r.parentE = r'.parentE → r.childE = r'.childE → r = r'
  times : ∀ x ∈ es.entities, ∀ t, x.timeIndex = some t → ∀ r ∈ x.df.rows, r t = .null ∨ ∃ m, r t = .num m ∧ -5364662400000000000 < m
  uniform : ∀ rel ∈ es.rels, ∀ c ∈ es.entities, c.id = rel.childE → ∀ s ∈ c.df.rows, ∀ s' ∈ c.df.rows, s rel.childV = s' rel.childV →
    (∃ m, HasTime es c.id s m) → ∃ m, HasTime es c.id s' m

/-- An entity is one of the given ones or a parent, a parent of a parent, and so on, of one. -/
inductive Above (es : ESet) (updated : List String) : String → Prop
  | here {e : String} (h : e ∈ updated) : Above es updated e
  | parent {e : String} {r : Relationship} (h : Above es updated e) (hr : r ∈ es.rels) (hc : r.childE = e) : Above es updated r.parentE

end FT.Spec
