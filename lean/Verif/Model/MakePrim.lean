import Verif.Model.PrimFile
/-!
# Primitives made from functions

Models `make_agg_primitive` (`primitives/base/aggregation_primitive_base.py` 38-163), `make_trans_primitive`
(`primitives/base/transform_primitive_base.py` 29-127) and `inspect_function_args` (`primitives/base/utils.py` 4-18). Functions have
ordinary parameters only, no `*args` and `**kwargs`, and their results do not depend on what was called before.
-/
namespace FT

/-- An argument of a Python function: a column or anything else. -/
inductive PyArg where
  | col (cells : List Val)
  | scalar (v : Val)
deriving DecidableEq

/-- A Python function: `__name__`, documentation, parameters with their defaults and what it does with the arguments, given in the
order of the parameters. -/
structure PyFun where
  name : String
  doc : Option String
  params : List (String × Option Val)
  body : List PyArg → Except PyErr Val

/-- The arguments of the parameters that are not given by position. -/
def bindRest (kw : List (String × PyArg)) : List (String × Option Val) → Except PyErr (List PyArg)
  | [] => .ok []
  | (n, d) :: ps => match (kw.lookup n).or (d.map .scalar) with
    | none => .error .typeError
    | some v => match bindRest kw ps with
      | .error e => .error e
      | .ok vs => .ok (v :: vs)

/-- A call of a Python function (the language reference, 6.3.4): too many arguments by position, a keyword for a parameter that has
one already, an unknown keyword and a missing argument are a `TypeError`. -/
def PyFun.call (f : PyFun) (pos : List PyArg) (kw : List (String × PyArg)) : Except PyErr Val :=
  if f.params.length < pos.length then .error .typeError
  else if kw.any fun k => ((f.params.take pos.length).map Prod.fst).contains k.1 || !(f.params.map Prod.fst).contains k.1 then
    .error .typeError
  else match bindRest kw (f.params.drop pos.length) with
    | .error e => .error e
    | .ok rest => f.body (pos ++ rest)

/-- `dict.update`. -/
def kwUpdate {α : Type} (d e : List (String × α)) : List (String × α) := (d.filter fun x => (e.lookup x.1).isNone) ++ e

/-- The loop of `inspect_function_args` (`base/utils.py` 8-17): whether `uses_calc_time` is set on the class, and the defaults. -/
def inspectArgs (usesCalcTime : Bool) : List (String × Option Val) → Except PyErr (Bool × List (String × Val))
  | [] => .ok (false, [])
  | (n, d) :: ps =>
    if n = "time" ∧ usesCalcTime = false then .error .valueError
    else match inspectArgs usesCalcTime ps with
      | .error e => .error e
      | .ok (t, kw) => .ok (decide (n = "time") || t, match d with | none => kw | some v => (n, v) :: kw)

/-- The value of a class attribute: plain values, `None`, and other objects (lists of types or primitives, functions, templates). -/
inductive PyObj where
  | pyNone
  | val (v : Val)
  | obj (id : Nat)
deriving DecidableEq

/-- Aggregation or transform primitive. -/
inductive MadeKind where
  | agg
  | trans
deriving DecidableEq

/-- A class made from a function: its own attributes and `default_kwargs`. -/
structure MadeClass where
  kind : MadeKind
  fn : PyFun
  defaults : List (String × Val)
  attrs : List (String × PyObj)

/-- `new_class.key = value` -/
def setAttr (attrs : List (String × PyObj)) (k : String) (v : PyObj) : List (String × PyObj) := (k, v) :: attrs

/-- The attributes of `PrimitiveBase`, `AggregationPrimitive` and `TransformPrimitive` (`primitive_base.py` 12-44,
`aggregation_primitive_base.py` 9-14, `transform_primitive_base.py` 9-14). Object 0 stands for `[Library.PANDAS]`. -/
def baseAttr (kind : MadeKind) (k : String) : Option PyObj :=
  match (["name", "input_types", "return_type", "max_stack_depth", "base_of", "base_of_exclude", "description_template"].contains k) with
  | true => some .pyNone
  | false =>
    if k = "default_value" then some (.val .null)
    else if k = "uses_calc_time" ∨ k = "commutative" then some (.val (.bool false))
    else if k = "number_output_features" then some (.val (.num 1))
    else if k = "compatibility" then some (.obj 0)
    else match kind with
      | .agg => if k = "stack_on" ∨ k = "stack_on_exclude" then some .pyNone
        else if k = "stack_on_self" then some (.val (.bool true)) else none
      | .trans => if k = "uses_full_entity" then some (.val (.bool false)) else none

/-- `getattr(cls, k)` -/
def MadeClass.attr (c : MadeClass) (k : String) : Option PyObj := (c.attrs.lookup k).or (baseAttr c.kind k)

/-- The arguments of `make_agg_primitive` (`aggregation_primitive_base.py` 38-45) and, where they exist there, of
`make_trans_primitive` (`transform_primitive_base.py` 29-32). `numInputs` is the length of `input_types`; `cls_attributes` is
a dictionary, `None` being the empty one. -/
structure MakeArgs where
  function : PyFun
  inputTypes : PyObj
  numInputs : Nat
  returnType : PyObj
  name : Option String := none
  stackOnSelf : Bool := true
  stackOn : PyObj := .pyNone
  stackOnExclude : PyObj := .pyNone
  baseOf : PyObj := .pyNone
  baseOfExclude : PyObj := .pyNone
  description : Option String := none
  clsAttributes : List (String × PyObj) := []
  usesCalcTime : Bool := false
  defaultValue : Option Val := none
  commutative : Bool := false
  numberOutputFeatures : Nat := 1

/-- `description` (`aggregation_primitive_base.py` 106-109, `transform_primitive_base.py` 83-86). -/
def madeDoc (kind : MadeKind) (a : MakeArgs) : String :=
  match a.description with
  | some d => d
  | none => a.function.doc.getD (match kind with | .agg => "A custom primitive" | .trans => "A custom transform primitive")

/-- `name or function.__name__` (`aggregation_primitive_base.py` 113, `transform_primitive_base.py` 93). -/
def madeName (a : MakeArgs) : String :=
  match a.name with
  | some "" => a.function.name
  | some n => n
  | none => a.function.name

/-- The value of `default_value` that is set (`aggregation_primitive_base.py` 151-160), if any: given, or the result of the function
for empty lists unless this fails. -/
def inferDefault (a : MakeArgs) : Option Val :=
  match a.defaultValue with
  | some v => some v
  | none => match a.function.call (List.replicate a.numInputs (.col [])) [] with
    | .ok v => some v
    | .error _ => none

/-- `make_agg_primitive` (`aggregation_primitive_base.py` 106-163) -/
def makeAggPrimitive (a : MakeArgs) : Except PyErr MadeClass :=
  let cls := kwUpdate [("__doc__", PyObj.val (.str (madeDoc .agg a)))] a.clsAttributes
  let cls := setAttr cls "name" (.val (.str (madeName a)))
  let cls := setAttr cls "input_types" a.inputTypes
  let cls := setAttr cls "return_type" a.returnType
  let cls := setAttr cls "stack_on" a.stackOn
  let cls := setAttr cls "stack_on_exclude" a.stackOnExclude
  let cls := setAttr cls "stack_on_self" (.val (.bool a.stackOnSelf))
  let cls := setAttr cls "base_of" a.baseOf
  let cls := setAttr cls "base_of_exclude" a.baseOfExclude
  let cls := setAttr cls "commutative" (.val (.bool a.commutative))
  let cls := setAttr cls "number_output_features" (.val (.num a.numberOutputFeatures))
  match inspectArgs a.usesCalcTime a.function.params with
  | .error e => .error e
  | .ok (time, defaults) =>
    let cls := if time then setAttr cls "uses_calc_time" (.val (.bool true)) else cls
    let cls := match inferDefault a with
      | some v => setAttr cls "default_value" (.val v)
      | none => cls
    .ok ⟨.agg, a.function, defaults, cls⟩

/-- `make_trans_primitive` (`transform_primitive_base.py` 83-127) -/
def makeTransPrimitive (a : MakeArgs) : Except PyErr MadeClass :=
  let cls := kwUpdate [("__doc__", PyObj.val (.str (madeDoc .trans a)))] a.clsAttributes
  let cls := setAttr cls "name" (.val (.str (madeName a)))
  let cls := setAttr cls "input_types" a.inputTypes
  let cls := setAttr cls "return_type" a.returnType
  let cls := setAttr cls "commutative" (.val (.bool a.commutative))
  let cls := setAttr cls "number_output_features" (.val (.num a.numberOutputFeatures))
  match inspectArgs a.usesCalcTime a.function.params with
  | .error e => .error e
  | .ok (time, defaults) =>
    let cls := if time then setAttr cls "uses_calc_time" (.val (.bool true)) else cls
    .ok ⟨.trans, a.function, defaults, cls⟩

/-- Either of the two. -/
def makePrimitive : MadeKind → MakeArgs → Except PyErr MadeClass
  | .agg => makeAggPrimitive
  | .trans => makeTransPrimitive

/-- A primitive of such a class: the class and `self.kwargs`. -/
structure MadeInst where
  cls : MadeClass
  kwargs : List (String × Val)

/-- `cls(*args, **kwargs)` (`aggregation_primitive_base.py` 139-143, `transform_primitive_base.py` 113-117): without defaults the
constructor is the one of `PrimitiveBase`, which takes no arguments (`primitive_base.py` 46-47). Constructors among the class
attributes are not modelled. -/
def MadeClass.new (c : MadeClass) (pos : List Val) (kw : List (String × Val)) : Except PyErr MadeInst :=
  if c.defaults.isEmpty then
    if pos.isEmpty && kw.isEmpty then .ok ⟨c, []⟩ else .error .typeError
  else match c.kind with
    | .agg => if pos.isEmpty then .ok ⟨c, kwUpdate c.defaults kw⟩ else .error .typeError
    | .trans => .ok ⟨c, kwUpdate c.defaults kw⟩

/-- A call of the function that `get_function` returns (`aggregation_primitive_base.py` 142, 146-149): `functools.partial` adds its
keywords to those of the call, which win. `PrimitiveBase.__call__` (`primitive_base.py` 49-55) is such a call. -/
def MadeInst.call (i : MadeInst) (pos : List PyArg) (kw : List (String × PyArg)) : Except PyErr Val :=
  i.cls.fn.call pos (kwUpdate (i.kwargs.map fun x => (x.1, PyArg.scalar x.2)) kw)

/-- The kinds of parameters that occur in the constructors. -/
inductive ParamKind where
  | positionalOrKeyword
  | varPositional
  | varKeyword
deriving DecidableEq

/-- `signature(self.__class__).parameters` (`primitive_base.py` 88) for the constructors above. -/
def MadeClass.signature (c : MadeClass) : List (String × ParamKind) :=
  if c.defaults.isEmpty then []
  else match c.kind with
    | .agg => [("kwargs", .varKeyword)]
    | .trans => [("args", .varPositional), ("kwargs", .varKeyword)]

/-- `get_arguments` (`primitive_base.py` 85-107): only ordinary parameters count. -/
def MadeInst.getArguments (i : MadeInst) : List (String × Val) :=
  ((i.cls.signature.filter fun p => p.2 = .positionalOrKeyword).map Prod.fst).filterMap fun n =>
    (i.kwargs.lookup n).map fun v => (n, v)

/-- `serialize_primitive` (`primitives/utils.py` 178-186). The class is created inside the module of `make_agg_primitive` or
`make_trans_primitive`, and `type` takes the module from there. -/
def serializeMade (i : MadeInst) : PDict :=
  ⟨(match i.cls.attr "name" with | some (.val (.str s)) => s | _ => ""),
   (match i.cls.kind with
    | .agg => "featuretools.primitives.base.aggregation_primitive_base"
    | .trans => "featuretools.primitives.base.transform_primitive_base"), i.getArguments⟩

end FT
