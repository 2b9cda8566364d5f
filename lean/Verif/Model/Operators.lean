import Verif.Model.Table
/-!
# Operators on features

Models the operators of `FeatureBase` (`feature_base/feature_base.py` 218-333), the primitives of
`primitives/standard/binary_transform.py` and those of `transform_primitive.py` that operators use (`IsNull`, `Absolute`,
`Negate`, `Not`, `IsIn`).  Numbers are exact fractions and the two infinities where the code has floating point: no rounding,
no overflow, one zero.  What pandas and numpy do with two cells is written out.
-/
namespace FT

/-- A number of a floating point column; NaN is `OCell.missing`. -/
inductive Ext where
  | fin (q : Rat)
  | posInf
  | negInf
deriving DecidableEq

/-- A cell. `missing` stands for NaN, NaT and None; a time is a number. -/
inductive OCell where
  | missing
  | num (x : Ext)
  | bool (b : Bool)
  | str (s : String)
deriving DecidableEq

/-- A column; `cats` are the categories if its dtype is categorical. -/
structure OColumn where
  cats : Option (List OCell)
  cells : List OCell
deriving DecidableEq

/-! ### Cells -/

/-- `-x` -/
def Ext.neg : Ext → Ext
  | .fin q => .fin (-q)
  | .posInf => .negInf
  | .negInf => .posInf

/-- `x + y`; `none` is NaN. -/
def Ext.add : Ext → Ext → Option Ext
  | .fin p, .fin q => some (.fin (p + q))
  | .fin _, y => some y
  | x, .fin _ => some x
  | .posInf, .posInf => some .posInf
  | .negInf, .negInf => some .negInf
  | _, _ => none

/-- `x - y` -/
def Ext.sub (x y : Ext) : Option Ext := x.add y.neg

/-- The infinity with the sign of `q`; `none` if `q` is zero. -/
def infSign (q : Rat) : Option Ext := if q = 0 then none else if 0 < q then some .posInf else some .negInf

/-- `x * y` -/
def Ext.mul : Ext → Ext → Option Ext
  | .fin p, .fin q => some (.fin (p * q))
  | .fin p, .posInf => infSign p
  | .fin p, .negInf => infSign (-p)
  | .posInf, .fin q => infSign q
  | .negInf, .fin q => infSign (-q)
  | .posInf, .posInf => some .posInf
  | .negInf, .negInf => some .posInf
  | _, _ => some .negInf

/-- `x / y`; a number divided by zero is infinite. -/
def Ext.div : Ext → Ext → Option Ext
  | .fin p, .fin q => if q = 0 then infSign p else some (.fin (p / q))
  | .fin _, _ => some (.fin 0)
  | .posInf, .fin q => if q < 0 then some .negInf else some .posInf
  | .negInf, .fin q => if q < 0 then some .posInf else some .negInf
  | _, _ => none

/-- `x % y`: the sign is that of `y`, and pandas gives NaN for a zero divisor. -/
def Ext.mod : Ext → Ext → Option Ext
  | .fin p, .fin q => if q = 0 then none else some (.fin (p - q * ((p / q).floor : Int)))
  | .fin p, .posInf => if p < 0 then some .posInf else some (.fin p)
  | .fin p, .negInf => if 0 < p then some .negInf else some (.fin p)
  | _, _ => none

/-- `abs(x)` -/
def Ext.abs : Ext → Ext
  | .fin q => .fin (if q < 0 then -q else q)
  | _ => .posInf

/-- `x < y` -/
def Ext.lt : Ext → Ext → Bool
  | .fin p, .fin q => decide (p < q)
  | .negInf, .negInf => false
  | .negInf, _ => true
  | _, .negInf => false
  | .posInf, _ => false
  | .fin _, .posInf => true

/-- The number in a cell (`none` for NaN): booleans count as 0 and 1, text is a `TypeError`. -/
def OCell.asNum : OCell → Except PyErr (Option Ext)
  | .missing => .ok none
  | .num x => .ok (some x)
  | .bool b => .ok (some (.fin (if b then 1 else 0)))
  | .str _ => .error .typeError

/-- A number or NaN as a cell. -/
def OCell.ofNum : Option Ext → OCell
  | none => .missing
  | some x => .num x

/-- Arithmetic on two cells: NaN when one is missing. -/
def arith (f : Ext → Ext → Option Ext) (a b : OCell) : Except PyErr OCell :=
  a.asNum.bind fun x => b.asNum.bind fun y => .ok (OCell.ofNum (x.bind fun x => y.bind fun y => f x y))

/-- `a < b`: false when one is missing; text is only compared with text. -/
def ltCell (a b : OCell) : Except PyErr Bool :=
  match a, b with
  | .missing, _ => .ok false
  | _, .missing => .ok false
  | .str s, .str t => .ok (decide (s < t))
  | a, b => a.asNum.bind fun x => b.asNum.bind fun y =>
      match x, y with
      | some x, some y => .ok (x.lt y)
      | _, _ => .ok false

/-- `a <= b` -/
def leCell (a b : OCell) : Except PyErr Bool :=
  match a, b with
  | .missing, _ => .ok false
  | _, .missing => .ok false
  | .str s, .str t => .ok (decide (¬ t < s))
  | a, b => a.asNum.bind fun x => b.asNum.bind fun y =>
      match x, y with
      | some x, some y => .ok (!y.lt x)
      | _, _ => .ok false

/-- `a == b`: false when one is missing; text never equals a number. -/
def eqCell (a b : OCell) : Bool :=
  match a, b with
  | .missing, _ => false
  | _, .missing => false
  | .str s, .str t => decide (s = t)
  | .str _, _ => false
  | _, .str _ => false
  | a, b => decide (a.asNum = b.asNum)

/-- `bool(a)`; NaN is true. -/
def OCell.truthy : OCell → Bool
  | .missing => true
  | .num x => decide (x ≠ .fin 0)
  | .bool b => b
  | .str s => decide (s ≠ "")

/-- `np.logical_and` on two cells: on columns of objects this is Python's `a and b`. -/
def andCell (a b : OCell) : OCell := if a.truthy then b else a

/-- `np.logical_or` on two cells: Python's `a or b`. -/
def orCell (a b : OCell) : OCell := if a.truthy then a else b

/-- `np.logical_not` -/
def notCell (a : OCell) : OCell := .bool (!a.truthy)

/-- `np.bitwise_and` on two series of booleans (`Series.__and__`): a missing value counts as false. -/
def bitAndCell (a b : OCell) : Except PyErr OCell :=
  match a, b with
  | .bool x, .bool y => .ok (.bool (x && y))
  | .missing, .bool _ => .ok (.bool false)
  | .bool _, .missing => .ok (.bool false)
  | .missing, .missing => .ok (.bool false)
  | _, _ => .error .typeError

/-! ### Columns -/

/-- A function of two series, cell by cell; the first error is raised. -/
def zipCells (f : OCell → OCell → Except PyErr OCell) (xs ys : OColumn) : Except PyErr OColumn :=
  (List.zip xs.cells ys.cells).mapM (fun p => f p.1 p.2) |>.map fun cells => { cats := none, cells := cells }

/-- A function of a series, cell by cell. -/
def mapCells (f : OCell → Except PyErr OCell) (xs : OColumn) : Except PyErr OColumn :=
  xs.cells.mapM f |>.map fun cells => { cats := none, cells := cells }

/-- `cat.add_categories(categories.difference(set(cat.categories)))` (`binary_transform.py` 270-271, 335-336). -/
def addCategories (categories : List OCell) (c : List OCell) : List OCell :=
  c ++ categories.filter fun x => !c.contains x

/-- `x.eq(y)` and `x.ne(y)` of pandas: two categorical series need the same set of categories. -/
def compareSeries (f : OCell → OCell → Except PyErr OCell) (xs ys : OColumn) : Except PyErr OColumn :=
  match xs.cats, ys.cats with
  | some cx, some cy =>
    if (cx.all fun x => cy.contains x) && (cy.all fun x => cx.contains x) then zipCells f xs ys else .error .typeError
  | _, _ => zipCells f xs ys

/-- The functions `equal` and `not_equal` (`binary_transform.py` 266-274, 331-339). -/
def compareUnion (f : OCell → OCell → Except PyErr OCell) (xs ys : OColumn) : Except PyErr OColumn :=
  match xs.cats, ys.cats with
  | some cx, some cy =>
    let categories := cx ++ cy
    compareSeries f { xs with cats := some (addCategories categories cx) } { ys with cats := some (addCategories categories cy) }
  | _, _ => compareSeries f xs ys

/-! ### Primitives -/

/-- Families of variable types (`variable_types/variable.py` 139-440): a subclass counts as its family. `Boolean` has no
subclasses. -/
inductive VFam where
  | numeric | boolean | datetime | ordinal | other
deriving DecidableEq

/-- Primitives of two inputs (`binary_transform.py`); the flag is the argument `commutative`. -/
inductive Prim2 where
  | gt | ge | lt | le | eq | ne
  | add | sub (commutative : Bool) | mul | mulBool | div (commutative : Bool) | mod
  | and | or
deriving DecidableEq

/-- Primitives of one input: those with a scalar (`binary_transform.py`), and `Absolute`, `Negate`, `Not`, `IsNull`, `IsIn`
(`transform_primitive.py`). -/
inductive Prim1 where
  | gtS (v : OCell) | geS (v : OCell) | ltS (v : OCell) | leS (v : OCell) | eqS (v : OCell) | neS (v : OCell)
  | addS (v : OCell) | subS (v : OCell) | rsubS (v : OCell) | mulS (v : OCell) | divS (v : OCell) | rdivS (v : OCell)
  | modS (v : OCell) | rmodS (v : OCell)
  | abs | neg | not | isNull | isIn (l : List OCell)
deriving DecidableEq

/-- An input type: `Variable` accepts every variable. -/
inductive VIn where
  | only (t : VFam)
  | variable
deriving DecidableEq

/-- `issubclass(f.variable_type, v)` -/
def VIn.accepts : VIn → VFam → Bool
  | .only t, u => decide (t = u)
  | .variable, _ => true

/-- `input_types` of the primitives of two inputs (`binary_transform.py` 31, 88, 145, 202, 259, 324, 389, 451, 541-545, 602,
635, 725, 813, 840). -/
def Prim2.inputs : Prim2 → List (VIn × VIn)
  | .gt | .ge | .lt | .le =>
    [(.only .numeric, .only .numeric), (.only .datetime, .only .datetime), (.only .ordinal, .only .ordinal)]
  | .eq | .ne => [(.variable, .variable)]
  | .add | .sub _ | .div _ | .mod => [(.only .numeric, .only .numeric)]
  | .mul => [(.only .numeric, .only .numeric), (.only .numeric, .only .boolean), (.only .boolean, .only .numeric)]
  | .mulBool => [(.only .boolean, .only .boolean)]
  | .and | .or => [(.only .boolean, .only .boolean)]

/-- `return_type` of the primitives of two inputs. -/
def Prim2.returns : Prim2 → VFam
  | .gt | .ge | .lt | .le | .eq | .ne | .mulBool | .and | .or => .boolean
  | .add | .sub _ | .mul | .div _ | .mod => .numeric

/-- `commutative` (`binary_transform.py` 261, 326, 391, 456-457, 547, 605, 640-641, 815, 842; `primitive_base.py` 36). -/
def Prim2.commutative : Prim2 → Bool
  | .eq | .ne | .add | .mul | .mulBool | .and | .or => true
  | .sub c | .div c => c
  | _ => false

/-- `get_function()` of the primitives of two inputs (`binary_transform.py` 36-37, 93-94, 150-151, 207-208, 265-274, 330-339,
395-396, 459-460, 551-552, 609-610, 643-644, 730-731, 819-820, 846-847). -/
def Prim2.fn : Prim2 → OColumn → OColumn → Except PyErr OColumn
  | .gt => zipCells fun a b => (ltCell b a).map .bool
  | .ge => zipCells fun a b => (leCell b a).map .bool
  | .lt => zipCells fun a b => (ltCell a b).map .bool
  | .le => zipCells fun a b => (leCell a b).map .bool
  | .eq => compareUnion fun a b => .ok (.bool (eqCell a b))
  | .ne => compareUnion fun a b => .ok (.bool (!eqCell a b))
  | .add => zipCells (arith Ext.add)
  | .sub _ => zipCells (arith Ext.sub)
  | .mul => zipCells (arith Ext.mul)
  | .mulBool => zipCells bitAndCell
  | .div _ => zipCells (arith Ext.div)
  | .mod => zipCells (arith Ext.mod)
  | .and => zipCells fun a b => .ok (andCell a b)
  | .or => zipCells fun a b => .ok (orCell a b)

/-- `input_types` of the primitives of one input (`binary_transform.py` 57, 114, 171, 228, 293, 358, 415, 479, 510, 571, 663,
694, 751, 782; `transform_primitive.py` 33, 53, 432, 491, 514). -/
def Prim1.inputs : Prim1 → List VIn
  | .gtS _ | .geS _ | .ltS _ | .leS _ => [.only .numeric, .only .datetime, .only .ordinal]
  | .eqS _ | .neS _ | .isNull | .isIn _ => [.variable]
  | .addS _ | .subS _ | .rsubS _ | .mulS _ | .divS _ | .rdivS _ | .modS _ | .rmodS _ | .abs | .neg => [.only .numeric]
  | .not => [.only .boolean]

/-- `return_type` of the primitives of one input. -/
def Prim1.returns : Prim1 → VFam
  | .gtS _ | .geS _ | .ltS _ | .leS _ | .eqS _ | .neS _ | .isNull | .isIn _ | .not => .boolean
  | _ => .numeric

/-- `get_function()` of the primitives of one input (`binary_transform.py` 65-68, 122-125, 179-182, 236-239, 301-304, 366-369,
423-426, 487-490, 518-521, 579-582, 671-674, 702-705, 759-762, 790-793; `transform_primitive.py` 38-41, 58-59, 444-447,
496-499, 522-523). `isin` compares cells as they are: 1 and True are different to it. -/
def Prim1.fn : Prim1 → OColumn → Except PyErr OColumn
  | .gtS v => mapCells fun a => (ltCell v a).map .bool
  | .geS v => mapCells fun a => (leCell v a).map .bool
  | .ltS v => mapCells fun a => (ltCell a v).map .bool
  | .leS v => mapCells fun a => (leCell a v).map .bool
  | .eqS v => mapCells fun a => .ok (.bool (eqCell a v))
  | .neS v => mapCells fun a => .ok (.bool (!eqCell a v))
  | .addS v => mapCells fun a => arith Ext.add a v
  | .subS v => mapCells fun a => arith Ext.sub a v
  | .rsubS v => mapCells fun a => arith Ext.sub v a
  | .mulS v => mapCells fun a => arith Ext.mul a v
  | .divS v => mapCells fun a => arith Ext.div a v
  | .rdivS v => mapCells fun a => arith Ext.div v a
  | .modS v => mapCells fun a => arith Ext.mod a v
  | .rmodS v => mapCells fun a => arith Ext.mod v a
  | .abs => mapCells fun a => a.asNum.map fun x => OCell.ofNum (x.map Ext.abs)
  | .neg => mapCells fun a => arith Ext.mul a (.num (.fin (-1)))
  | .not => mapCells fun a => .ok (notCell a)
  | .isNull => mapCells fun a => .ok (.bool (decide (a = .missing)))
  | .isIn l => mapCells fun a => .ok (.bool (l.contains a))

/-! ### Features -/

/-- The class of a feature, as far as it decides which operand Python asks first. -/
inductive FClass where
  | transform | groupby | other
deriving DecidableEq

/-- A feature that is not the result of an operator: its class, entity, name and type. -/
structure Leaf where
  cls : FClass
  entity : String
  name : String
  vtype : VFam
deriving DecidableEq

/-- A feature: a leaf, or a `TransformFeature` with one of the primitives above. -/
inductive OFeat where
  | leaf (l : Leaf)
  | un (p : Prim1) (a : OFeat)
  | bin (p : Prim2) (a b : OFeat)
deriving DecidableEq

namespace OFeat

/-- `entity` (`feature_base.py` 41, 655). -/
def entity : OFeat → String
  | leaf l => l.entity
  | un _ a => a.entity
  | bin _ a _ => a.entity

/-- `variable_type` (`feature_base.py` 176-202, 379-381): every primitive here has a `return_type`. -/
def vtype : OFeat → VFam
  | leaf l => l.vtype
  | un p _ => p.returns
  | bin p _ _ => p.returns

/-- The class of the feature. -/
def cls : OFeat → FClass
  | leaf l => l.cls
  | _ => .transform

/-- `Feature([a], primitive=p)` (`feature_base.py` 57, 141-156, 641-659, 739-763). -/
def mk1 (p : Prim1) (a : OFeat) : Except PyErr OFeat :=
  if p.inputs.any fun t => t.accepts a.vtype then .ok (un p a) else .error .assertionError

/-- `Feature([a, b], primitive=p)`: both of the same entity, types as required. -/
def mk2 (p : Prim2) (a b : OFeat) : Except PyErr OFeat :=
  if a.entity ≠ b.entity then .error .assertionError
  else if p.inputs.any fun t => t.1.accepts a.vtype && t.2.accepts b.vtype then .ok (bin p a b)
  else .error .assertionError

end OFeat

/-- What stands on the other side of an operator. -/
inductive Operand where
  | feature (f : OFeat)
  | scalar (v : OCell)
deriving DecidableEq

/-- `_handle_binary_comparision` (`feature_base.py` 218-222). -/
def handleBinary (self : OFeat) (other : Operand) (p2 : Prim2) (p1 : OCell → Prim1) : Except PyErr OFeat :=
  match other with
  | .feature g => OFeat.mk2 p2 self g
  | .scalar v => OFeat.mk1 (p1 v) self

/-- `__eq__` (`feature_base.py` 224-226). -/
def dunderEq (self : OFeat) (other : Operand) := handleBinary self other .eq .eqS
/-- `__ne__` (`feature_base.py` 228-230). -/
def dunderNe (self : OFeat) (other : Operand) := handleBinary self other .ne .neS
/-- `__gt__` (`feature_base.py` 232-234). -/
def dunderGt (self : OFeat) (other : Operand) := handleBinary self other .gt .gtS
/-- `__ge__` (`feature_base.py` 236-238). -/
def dunderGe (self : OFeat) (other : Operand) := handleBinary self other .ge .geS
/-- `__lt__` (`feature_base.py` 240-242). -/
def dunderLt (self : OFeat) (other : Operand) := handleBinary self other .lt .ltS
/-- `__le__` (`feature_base.py` 244-246). -/
def dunderLe (self : OFeat) (other : Operand) := handleBinary self other .le .leS
/-- `__add__` (`feature_base.py` 248-250). -/
def dunderAdd (self : OFeat) (other : Operand) := handleBinary self other .add .addS
/-- `__radd__` (`feature_base.py` 252-253). -/
def dunderRadd (self : OFeat) (other : Operand) := dunderAdd self other
/-- `__sub__` (`feature_base.py` 255-257). -/
def dunderSub (self : OFeat) (other : Operand) := handleBinary self other (.sub true) .subS
/-- `__rsub__` (`feature_base.py` 259-260); Python only calls it when the left operand is not a feature. -/
def dunderRsub (self : OFeat) (v : OCell) := OFeat.mk1 (.rsubS v) self
/-- `__div__`, `__truediv__` (`feature_base.py` 262-267). -/
def dunderDiv (self : OFeat) (other : Operand) := handleBinary self other (.div false) .divS
/-- `__rtruediv__`, `__rdiv__` (`feature_base.py` 269-273). -/
def dunderRdiv (self : OFeat) (v : OCell) := OFeat.mk1 (.rdivS v) self
/-- `__mul__` (`feature_base.py` 275-280). -/
def dunderMul (self : OFeat) (other : Operand) : Except PyErr OFeat :=
  match other with
  | .feature g =>
    if self.vtype = .boolean ∧ g.vtype = .boolean then OFeat.mk2 .mulBool self g else handleBinary self other .mul .mulS
  | .scalar _ => handleBinary self other .mul .mulS
/-- `__rmul__` (`feature_base.py` 282-283). -/
def dunderRmul (self : OFeat) (other : Operand) := dunderMul self other
/-- `__mod__` (`feature_base.py` 285-287). -/
def dunderMod (self : OFeat) (other : Operand) := handleBinary self other .mod .modS
/-- `__rmod__` (`feature_base.py` 289-290). -/
def dunderRmod (self : OFeat) (v : OCell) := OFeat.mk1 (.rmodS v) self
/-- `__and__`, `AND` (`feature_base.py` 292-293, 313-315, 823-829): a scalar is "Not a feature". -/
def dunderAnd (self : OFeat) (other : Operand) : Except PyErr OFeat :=
  match other with
  | .feature g => OFeat.mk2 .and self g
  | .scalar _ => .error .other
/-- `__rand__` (`feature_base.py` 295-296): the left operand is not a feature. -/
def dunderRand (_self : OFeat) (_v : OCell) : Except PyErr OFeat := .error .other
/-- `__or__`, `OR` (`feature_base.py` 298-299, 317-319). -/
def dunderOr (self : OFeat) (other : Operand) : Except PyErr OFeat :=
  match other with
  | .feature g => OFeat.mk2 .or self g
  | .scalar _ => .error .other
/-- `__ror__` (`feature_base.py` 301-302). -/
def dunderRor (_self : OFeat) (_v : OCell) : Except PyErr OFeat := .error .other
/-- `__abs__` (`feature_base.py` 307-308). -/
def dunderAbs (self : OFeat) := OFeat.mk1 .abs self
/-- `__neg__` (`feature_base.py` 310-311). -/
def dunderNeg (self : OFeat) := OFeat.mk1 .neg self
/-- `__invert__`, `NOT` (`feature_base.py` 321-323, 332-333). -/
def dunderInvert (self : OFeat) := OFeat.mk1 .not self
/-- `isin` (`feature_base.py` 325-326). -/
def methodIsin (self : OFeat) (l : List OCell) := OFeat.mk1 (.isIn l) self
/-- `is_null` (`feature_base.py` 328-330). -/
def methodIsNull (self : OFeat) := OFeat.mk1 .isNull self

/-! ### Expressions -/

/-- The operators of two operands. -/
inductive POp where
  | lt | le | gt | ge | eq | ne | add | sub | mul | div | mod | and | or
deriving DecidableEq

/-- A Python expression over features: at least one operand of each operator is a feature. -/
inductive PExpr where
  | leaf (l : Leaf)
  | op (o : POp) (a b : PExpr)
  | opScalar (o : POp) (a : PExpr) (v : OCell)
  | scalarOp (o : POp) (v : OCell) (a : PExpr)
  | neg (a : PExpr)
  | abs (a : PExpr)
  | invert (a : PExpr)
  | isNull (a : PExpr)
  | isIn (a : PExpr) (l : List OCell)
deriving DecidableEq

/-- The method that `a o other` calls when `a` is asked. -/
def forward (o : POp) (a : OFeat) (other : Operand) : Except PyErr OFeat :=
  match o with
  | .lt => dunderLt a other
  | .le => dunderLe a other
  | .gt => dunderGt a other
  | .ge => dunderGe a other
  | .eq => dunderEq a other
  | .ne => dunderNe a other
  | .add => dunderAdd a other
  | .sub => dunderSub a other
  | .mul => dunderMul a other
  | .div => dunderDiv a other
  | .mod => dunderMod a other
  | .and => dunderAnd a other
  | .or => dunderOr a other

/-- The method that `v o a` calls when `v` is a scalar: the reflected one, for comparisons the mirrored one. -/
def reflected (o : POp) (a : OFeat) (v : OCell) : Except PyErr OFeat :=
  match o with
  | .lt => dunderGt a (.scalar v)
  | .le => dunderGe a (.scalar v)
  | .gt => dunderLt a (.scalar v)
  | .ge => dunderLe a (.scalar v)
  | .eq => dunderEq a (.scalar v)
  | .ne => dunderNe a (.scalar v)
  | .add => dunderRadd a (.scalar v)
  | .sub => dunderRsub a v
  | .mul => dunderRmul a (.scalar v)
  | .div => dunderRdiv a v
  | .mod => dunderRmod a v
  | .and => dunderRand a v
  | .or => dunderRor a v

/-- Which method `a o b` calls for two features: in a comparison Python first asks the right operand if its class is a
proper subclass of that of the left one (`GroupByTransformFeature` is one of `TransformFeature`). -/
def between (o : POp) (a b : OFeat) : Except PyErr OFeat :=
  if a.cls = .transform ∧ b.cls = .groupby then
    match o with
    | .lt => dunderGt b (.feature a)
    | .le => dunderGe b (.feature a)
    | .gt => dunderLt b (.feature a)
    | .ge => dunderLe b (.feature a)
    | .eq => dunderEq b (.feature a)
    | .ne => dunderNe b (.feature a)
    | o => forward o a (.feature b)
  else forward o a (.feature b)

/-- The feature that an expression builds. -/
def build : PExpr → Except PyErr OFeat
  | .leaf l => .ok (.leaf l)
  | .op o a b => (build a).bind fun f => (build b).bind fun g => between o f g
  | .opScalar o a v => (build a).bind fun f => forward o f (.scalar v)
  | .scalarOp o v a => (build a).bind fun f => reflected o f v
  | .neg a => (build a).bind dunderNeg
  | .abs a => (build a).bind dunderAbs
  | .invert a => (build a).bind dunderInvert
  | .isNull a => (build a).bind methodIsNull
  | .isIn a l => (build a).bind fun f => methodIsin f l

/-- The column of a feature (`feature_set_calculator.py` 450-498: the function of the primitive applied to the columns of
the base features), given the columns of the leaves. -/
def OFeat.column (data : Leaf → OColumn) : OFeat → Except PyErr OColumn
  | .leaf l => .ok (data l)
  | .un p a => (a.column data).bind p.fn
  | .bin p a b => (a.column data).bind fun x => (b.column data).bind fun y => p.fn x y

/-! ### Names -/

/-- `generate_name` of the primitives of two inputs (`binary_transform.py` 39-40, 96-97, 153-154, 210-211, 276-277, 341-342,
398-399, 462-463, 554-555, 612-613, 646-647, 733-734, 822-823, 849-850). -/
def Prim2.genName (p : Prim2) (a b : String) : String :=
  match p with
  | .gt => a ++ " > " ++ b
  | .ge => a ++ " >= " ++ b
  | .lt => a ++ " < " ++ b
  | .le => a ++ " <= " ++ b
  | .eq => a ++ " = " ++ b
  | .ne => a ++ " != " ++ b
  | .add => a ++ " + " ++ b
  | .sub _ => a ++ " - " ++ b
  | .mul | .mulBool => a ++ " * " ++ b
  | .div _ => a ++ " / " ++ b
  | .mod => a ++ " % " ++ b
  | .and => "AND(" ++ a ++ ", " ++ b ++ ")"
  | .or => "OR(" ++ a ++ ", " ++ b ++ ")"

/-- `generate_name` of the primitives of one input (`binary_transform.py` 70-71, 127-128, 184-185, 241-242, 306-307, 371-372,
428-429, 492-493, 523-524, 584-585, 676-677, 707-708, 764-765, 795-796; `transform_primitive.py` 449-451, 501-502, 519-520;
`transform_primitive_base.py` 15-20). `text` is `str`, `listText` is `str` of a list. -/
def Prim1.genName (text : OCell → String) (listText : List OCell → String) (p : Prim1) (a : String) : String :=
  match p with
  | .gtS v => a ++ " > " ++ text v
  | .geS v => a ++ " >= " ++ text v
  | .ltS v => a ++ " < " ++ text v
  | .leS v => a ++ " <= " ++ text v
  | .eqS v => a ++ " = " ++ text v
  | .neS v => a ++ " != " ++ text v
  | .addS v => a ++ " + " ++ text v
  | .subS v => a ++ " - " ++ text v
  | .rsubS v => text v ++ " - " ++ a
  | .mulS v => a ++ " * " ++ text v
  | .divS v => a ++ " / " ++ text v
  | .rdivS v => text v ++ " / " ++ a
  | .modS v => a ++ " % " ++ text v
  | .rmodS v => text v ++ " % " ++ a
  | .abs => "ABSOLUTE(" ++ a ++ ")"
  | .neg => "-(" ++ a ++ ")"
  | .not => "NOT(" ++ a ++ ")"
  | .isNull => "IS_NULL(" ++ a ++ ")"
  | .isIn l => a ++ ".isin(" ++ listText l ++ ")"

/-- `get_name()` of a feature that was not renamed (`feature_base.py` 81-84, 670-671). -/
def OFeat.name (text : OCell → String) (listText : List OCell → String) : OFeat → String
  | .leaf l => l.name
  | .un p a => p.genName text listText (a.name text listText)
  | .bin p a b => p.genName (a.name text listText) (b.name text listText)

end FT
