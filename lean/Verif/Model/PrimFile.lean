import Verif.Model.Table
/-!
# Saving and loading primitives

Models `serialize_primitive` and `PrimitivesDeserializer` of `primitives/utils.py` and `get_arguments` of
`primitives/base/primitive_base.py`.
-/
namespace FT

/-- A primitive class: `__name__` and `__module__`, which class it is, and the parameters of its constructor that
`get_arguments` looks at, with their defaults. -/
structure PClass where
  key : String × String
  uid : Nat
  params : List (String × Option Val)
deriving DecidableEq

/-- A class with its `__subclasses__()`. -/
inductive ClassTree where
  | node (c : PClass) (subs : List ClassTree)

mutual
/-- `find_descendents` (`utils/gen_utils.py` 34-45). -/
def ClassTree.descendants : ClassTree → List PClass
  | .node c subs => c :: descendantsL subs
/-- The loop over the subclasses (`gen_utils.py` 43-45). -/
def ClassTree.descendantsL : List ClassTree → List PClass
  | [] => []
  | t :: ts => t.descendants ++ descendantsL ts
end

/-- A primitive: its class and the values of the attributes named like the parameters, in their order. -/
structure PInst where
  cls : PClass
  args : List Val
deriving DecidableEq

/-- `isinstance(value, type(default)) and default == value` (`primitive_base.py` 99-103): `True` is an `int` and equals 1. A
parameter without default is never skipped. -/
def isDefault (default : Option Val) (v : Val) : Bool :=
  match default, v with
  | some (.num n), .bool b => n == (if b then 1 else 0)
  | d, v => d == some v

/-- `get_arguments` (`primitive_base.py` 85-107). -/
def PInst.getArguments (p : PInst) : List (String × Val) :=
  ((p.cls.params.zip p.args).filter fun (d, v) => !isDefault d.2 v).map fun (d, v) => (d.1, v)

/-- What is stored of a primitive. -/
structure PDict where
  type : String
  module : String
  arguments : List (String × Val)
deriving DecidableEq

/-- `serialize_primitive` (`primitives/utils.py` 178-186). -/
def serializePrimitive (p : PInst) : PDict := ⟨p.cls.key.1, p.cls.key.2, p.getArguments⟩

/-- The values of the parameters for given keyword arguments: an argument missing without default is a `TypeError`. -/
def bindParams (arguments : List (String × Val)) : List (String × Option Val) → Except PyErr (List Val)
  | [] => .ok []
  | (n, d) :: ps => match (arguments.lookup n).or d with
    | none => .error .typeError
    | some v => match bindParams arguments ps with
      | .error e => .error e
      | .ok vs => .ok (v :: vs)

/-- `cls(**arguments)` (`primitives/utils.py` 221): every parameter is kept as an attribute; an unknown argument is a
`TypeError`. -/
def construct (c : PClass) (arguments : List (String × Val)) : Except PyErr PInst :=
  if arguments.any fun a => !(c.params.map Prod.fst).contains a.1 then .error .typeError
  else match bindParams arguments c.params with
    | .error e => .error e
    | .ok vs => .ok ⟨c, vs⟩

/-- `PrimitivesDeserializer` (`primitives/utils.py` 189-201): the cache, latest entry first, and what the generator has still
to give. -/
structure PDeser where
  cache : List ((String × String) × PClass)
  rest : List PClass

/-- `PrimitivesDeserializer()` (`primitives/utils.py` 198-200). -/
def PDeser.new (root : ClassTree) : PDeser := ⟨[], root.descendants⟩

/-- `_find_class_in_descendants` (`primitives/utils.py` 223-229). -/
def findClass (key : String × String) : List ((String × String) × PClass) → List PClass → Option PClass × PDeser
  | cache, [] => (none, ⟨cache, []⟩)
  | cache, c :: cs => if c.key = key then (some c, ⟨(c.key, c) :: cache, cs⟩) else findClass key ((c.key, c) :: cache) cs

/-- The class for a key (`primitives/utils.py` 209-218). -/
def PDeser.classFor (s : PDeser) (key : String × String) : Option PClass × PDeser :=
  match s.cache.lookup key with
  | some c => (some c, s)
  | none => findClass key s.cache s.rest

/-- `deserialize_primitive` (`primitives/utils.py` 202-221). -/
def deserializePrimitive (s : PDeser) (d : PDict) : Except PyErr PInst × PDeser :=
  match s.classFor (d.type, d.module) with
  | (none, s') => (.error .runtimeError, s')
  | (some c, s') => (construct c d.arguments, s')

/-- Several requests, one after the other. -/
def deserializeAll (s : PDeser) : List PDict → PDeser
  | [] => s
  | d :: ds => deserializeAll (deserializePrimitive s d).2 ds

end FT
