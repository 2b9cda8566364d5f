import Verif.Model.Build
/-!
# Objects of the package in lists, sets and dictionaries

Models `__eq__` and `__hash__` of relationships and paths (`entityset/relationship.py` 44-57, 156-161), variables
(`variable_types/variable.py` 59-69), entities (`entityset/entity.py` 101-111, 153-154) and features (`feature_base/feature_base.py`
170-174, 218-226), and what `in`, `set` and the keys of a `dict` do with them.  Python's hashes of texts and tuples of texts are
parameters.  Classes that define `__eq__` but not `__hash__` cannot be hashed (`RelationshipPath`, `Timedelta`, `EntitySet`).
-/
namespace FT

/-- An object: where it is, and its state. -/
structure Ref (α : Type) where
  addr : Nat
  val : α

/-- What Python asks an object: `hash(x)`, and whether `x == y` counts as true.  Both may raise. -/
structure KeyType (α : Type) where
  hash : α → Except PyErr Int
  eq : α → α → Except PyErr Bool

/-- Python: `m is x or m == x`. -/
def meets {α : Type} (K : KeyType α) (m x : Ref α) : Except PyErr Bool :=
  if m.addr = x.addr then .ok true else K.eq m.val x.val

/-- Python: `x in l` for a list. -/
def inList {α : Type} (K : KeyType α) : List (Ref α) → Ref α → Except PyErr Bool
  | [], _ => .ok false
  | m :: l, x => match meets K m x with
    | .error e => .error e
    | .ok true => .ok true
    | .ok false => inList K l x

/-- Those of the members that have a hash.  They all have, once they are in the set. -/
def sameHash {α : Type} (K : KeyType α) (h : Int) (m : Ref α) : Bool := match K.hash m.val with | .ok h' => h' == h | .error _ => false

/-- Python: `x in s` for a set or the keys of a dictionary: members with the hash of `x` are compared.  In which order that happens depends
on the table; here it is that of insertion. -/
def inSet {α : Type} (K : KeyType α) (s : List (Ref α)) (x : Ref α) : Except PyErr Bool :=
  match K.hash x.val with
  | .error e => .error e
  | .ok h => inList K (s.filter (sameHash K h)) x

/-- Python: `set(l)`, the rest of it: an object is added unless it is there. -/
def addAll {α : Type} (K : KeyType α) : List (Ref α) → List (Ref α) → Except PyErr (List (Ref α))
  | s, [] => .ok s
  | s, x :: l => match inSet K s x with
    | .error e => .error e
    | .ok true => addAll K s l
    | .ok false => addAll K (s ++ [x]) l

/-- Python: `set(l)`. -/
def pySet {α : Type} (K : KeyType α) (l : List (Ref α)) : Except PyErr (List (Ref α)) := addAll K [] l

/-- `Relationship.__eq__` (`relationship.py` 44-51) -/
def relationshipEq (a b : Relationship) : Bool :=
  a.parentE == b.parentE && a.childE == b.childE && a.parentV == b.parentV && a.childV == b.childV

/-- `Relationship.__hash__` (`relationship.py` 53-57) -/
def relationshipHash (tuple : List String → Int) (a : Relationship) : Int := tuple [a.parentE, a.childE, a.parentV, a.childV]

/-- Relationships as keys. -/
def relationshipKeys (tuple : List String → Int) : KeyType Relationship :=
  { hash := fun a => .ok (relationshipHash tuple a), eq := fun a b => .ok (relationshipEq a b) }

/-- `list.__eq__` on pairs of a direction and a relationship. -/
def stepsEq : RelPath → RelPath → Bool
  | [], [] => true
  | a :: as, b :: bs => a.1 == b.1 && relationshipEq a.2 b.2 && stepsEq as bs
  | _, _ => false

/-- Paths: `RelationshipPath.__eq__` (`relationship.py` 156-158); there is no `__hash__`. -/
def pathKeys : KeyType RelPath := { hash := fun _ => .error .typeError, eq := fun a b => .ok (stepsEq a b) }

/-- A variable: class, `id` and `entity_id`. -/
structure VarObj where
  cls : String
  id : String
  entity : String
deriving DecidableEq

/-- `Variable.__eq__` (`variable.py` 59-64), called on `a`; `sub` is `issubclass`. -/
def variableDunderEq (sub : String → String → Bool) (a b : VarObj) : Bool := sub b.cls a.cls && a.id == b.id && a.entity == b.entity

/-- Python: `a == b` asks `b` if its class is a proper subclass of that of `a`. -/
def variableEq (sub : String → String → Bool) (a b : VarObj) : Bool :=
  if a.cls ≠ b.cls ∧ sub b.cls a.cls = true then variableDunderEq sub b a else variableDunderEq sub a b

/-- Variables: `__hash__` (`variable.py` 68-69). -/
def variableKeys (sub : String → String → Bool) (tuple : List String → Int) : KeyType VarObj :=
  { hash := fun a => .ok (tuple [a.id, a.entity]), eq := fun a b => .ok (variableEq sub a b) }

/-- The variables of an entity, which know its id. -/
def varObjs (e : BuildEnt) : List VarObj := e.vars.map fun v => ⟨v.2, v.1, e.id⟩

/-- `Entity.__eq__`, not deep (`entity.py` 101-111).  Sets of variables are compared by class, id and entity; secondary time indexes are
taken to be written in one order. -/
def entityDunderEq (a b : BuildEnt) : Bool :=
  a.index == b.index && a.timeIndex == b.timeIndex && a.secondary == b.secondary && a.vars.length == b.vars.length &&
    ((varObjs a).all (varObjs b).contains && (varObjs b).all (varObjs a).contains)

/-- Entities: `__hash__` is the address of the text `id` (`entity.py` 153-154). -/
def entityKeys : KeyType BuildEnt := { hash := fun a => .ok (a.obj : Int), eq := fun a b => .ok (entityDunderEq a b) }

/-- `Equal` (`primitives/standard/binary_transform.py` 245-275) -/
def equalPrim : BPrim := { inputs := some [["Variable", "Variable"]], outputs := 1, aggregation := false, transform := true }

/-- Features: `==` builds a feature (`feature_base.py` 218-226), and a feature counts as true; `__hash__` is that of the name and the id
of the entity, one after the other (`feature_base.py` 170-174). -/
def featureKeys (sub : String → String → Bool) (text : String → Int) : KeyType BFeat :=
  { hash := fun f => .ok (text (f.name ++ f.ent.id))
    eq := fun f g => match handTrans sub (.many [.feature f, .feature g]) equalPrim with | .ok _ => .ok true | .error e => .error e }

end FT
