import Verif.Model.Operators
/-!
# What expressions over features mean

Written without the functions of the model: rules for the value of an operator on two cells, for the value of an expression
in one row, for the types of expressions, and the text of an expression.
-/
namespace FT.Spec

/-- The order of numbers with infinities. -/
inductive SmallerThan : Ext → Ext → Prop where
  | fin {p q : Rat} : p < q → SmallerThan (.fin p) (.fin q)
  | negInf {x : Ext} : x ≠ .negInf → SmallerThan .negInf x
  | posInf {x : Ext} : x ≠ .posInf → SmallerThan x .posInf

/-- The number in a cell; True is 1 and False is 0. -/
inductive Holds : OCell → Ext → Prop where
  | num (x : Ext) : Holds (.num x) x
  | true : Holds (.bool true) (.fin 1)
  | false : Holds (.bool false) (.fin 0)

/-- Numbers that are not finite. -/
def Infinite (x : Ext) : Prop := x = .posInf ∨ x = .negInf

/-- `-x` -/
inductive Opposite : Ext → Ext → Prop where
  | fin (q : Rat) : Opposite (.fin q) (.fin (-q))
  | posInf : Opposite .posInf .negInf
  | negInf : Opposite .negInf .posInf

/-- `x + y` -/
inductive Sum : Ext → Ext → OCell → Prop where
  | fin (p q : Rat) : Sum (.fin p) (.fin q) (.num (.fin (p + q)))
  | left {x : Ext} (q : Rat) : Infinite x → Sum x (.fin q) (.num x)
  | right {x : Ext} (p : Rat) : Infinite x → Sum (.fin p) x (.num x)
  | same {x : Ext} : Infinite x → Sum x x (.num x)
  | opposite {x y : Ext} : Infinite x → Opposite x y → Sum x y .missing

/-- `x * y` -/
inductive Product : Ext → Ext → OCell → Prop where
  | fin (p q : Rat) : Product (.fin p) (.fin q) (.num (.fin (p * q)))
  | zero {x : Ext} : Infinite x → Product (.fin 0) x .missing
  | zero' {x : Ext} : Infinite x → Product x (.fin 0) .missing
  | positive {x y : Ext} : Infinite x ∨ Infinite y → SmallerThan (.fin 0) x → SmallerThan (.fin 0) y → Product x y (.num .posInf)
  | positive' {x y : Ext} : Infinite x ∨ Infinite y → SmallerThan x (.fin 0) → SmallerThan y (.fin 0) → Product x y (.num .posInf)
  | negative {x y : Ext} : Infinite x ∨ Infinite y → SmallerThan x (.fin 0) → SmallerThan (.fin 0) y → Product x y (.num .negInf)
  | negative' {x y : Ext} : Infinite x ∨ Infinite y → SmallerThan (.fin 0) x → SmallerThan y (.fin 0) → Product x y (.num .negInf)

/-- `x / y` -/
inductive Quotient : Ext → Ext → OCell → Prop where
  | fin (p : Rat) {q : Rat} : q ≠ 0 → Quotient (.fin p) (.fin q) (.num (.fin (p / q)))
  | undefined : Quotient (.fin 0) (.fin 0) .missing
  | byZero {p : Rat} : 0 < p → Quotient (.fin p) (.fin 0) (.num .posInf)
  | byZero' {p : Rat} : p < 0 → Quotient (.fin p) (.fin 0) (.num .negInf)
  | byInfinity {x : Ext} (p : Rat) : Infinite x → Quotient (.fin p) x (.num (.fin 0))
  | infinite {x : Ext} {q : Rat} : Infinite x → 0 ≤ q → Quotient x (.fin q) (.num x)
  | infinite' {x y : Ext} {q : Rat} : Infinite x → Opposite x y → q < 0 → Quotient x (.fin q) (.num y)
  | both {x y : Ext} : Infinite x → Infinite y → Quotient x y .missing

/-- `x % y`: what remains after taking away a whole multiple of `y`, with the sign of `y`. -/
inductive Remainder : Ext → Ext → OCell → Prop where
  | positive {p q r : Rat} (k : Int) : p = k * q + r → 0 ≤ r → r < q → Remainder (.fin p) (.fin q) (.num (.fin r))
  | negative {p q r : Rat} (k : Int) : p = k * q + r → r ≤ 0 → q < r → Remainder (.fin p) (.fin q) (.num (.fin r))
  | byZero (p : Rat) : Remainder (.fin p) (.fin 0) .missing
  | infinite {x : Ext} (y : Ext) : Infinite x → Remainder x y .missing
  | large {p : Rat} : 0 ≤ p → Remainder (.fin p) .posInf (.num (.fin p))
  | large' {p : Rat} : p ≤ 0 → Remainder (.fin p) .negInf (.num (.fin p))
  | wrap {p : Rat} : p < 0 → Remainder (.fin p) .posInf (.num .posInf)
  | wrap' {p : Rat} : 0 < p → Remainder (.fin p) .negInf (.num .negInf)

/-- Neither text. -/
def NotText (a : OCell) : Prop := ∀ s, a ≠ .str s

/-- `a` comes before `b`: numbers by size, text alphabetically; nothing missing comes before or after anything. -/
def Precedes (a b : OCell) : Prop :=
  (∃ x y, Holds a x ∧ Holds b y ∧ SmallerThan x y) ∨ ∃ s t, a = .str s ∧ b = .str t ∧ s < t

/-- `a` and `b` are the same number or the same text; a missing value is the same as nothing. -/
def Same (a b : OCell) : Prop := (∃ x, Holds a x ∧ Holds b x) ∨ ∃ s, a = .str s ∧ b = .str s

/-- Both numbers, both text, or one of them missing. -/
def Comparable (a b : OCell) : Prop :=
  (NotText a ∧ NotText b) ∨ (∃ s t, a = .str s ∧ b = .str t) ∨ a = .missing ∨ b = .missing

/-- One missing, no text. -/
def SomeMissing (a b : OCell) : Prop := NotText a ∧ NotText b ∧ (a = .missing ∨ b = .missing)

/-- The operators of arithmetic. -/
def IsArithmetic (o : POp) : Prop := o = .add ∨ o = .sub ∨ o = .mul ∨ o = .div ∨ o = .mod

/-- `Result o a b v`: the operator `o` on the values `a` and `b` gives `v`. -/
inductive Result : POp → OCell → OCell → OCell → Prop where
  | lt {a b : OCell} {v : Bool} : Comparable a b → (v = true ↔ Precedes a b) → Result .lt a b (.bool v)
  | gt {a b : OCell} {v : Bool} : Comparable a b → (v = true ↔ Precedes b a) → Result .gt a b (.bool v)
  | le {a b : OCell} {v : Bool} : Comparable a b → (v = true ↔ Precedes a b ∨ Same a b) → Result .le a b (.bool v)
  | ge {a b : OCell} {v : Bool} : Comparable a b → (v = true ↔ Precedes b a ∨ Same a b) → Result .ge a b (.bool v)
  | eq {a b : OCell} {v : Bool} : (v = true ↔ Same a b) → Result .eq a b (.bool v)
  | ne {a b : OCell} {v : Bool} : (v = true ↔ ¬ Same a b) → Result .ne a b (.bool v)
  | add {a b v : OCell} {x y : Ext} : Holds a x → Holds b y → Sum x y v → Result .add a b v
  | sub {a b v : OCell} {x y z : Ext} : Holds a x → Holds b y → Opposite y z → Sum x z v → Result .sub a b v
  | mul {a b v : OCell} {x y : Ext} : Holds a x → Holds b y → ¬ (∃ p q, a = .bool p ∧ b = .bool q) → Product x y v →
      Result .mul a b v
  | mulBool (p q : Bool) : Result .mul (.bool p) (.bool q) (.bool (p && q))
  | div {a b v : OCell} {x y : Ext} : Holds a x → Holds b y → Quotient x y v → Result .div a b v
  | mod {a b v : OCell} {x y : Ext} : Holds a x → Holds b y → Remainder x y v → Result .mod a b v
  | missing {o : POp} {a b : OCell} : IsArithmetic o → SomeMissing a b → Result o a b .missing
  | and (p q : Bool) : Result .and (.bool p) (.bool q) (.bool (p && q))
  | or (p q : Bool) : Result .or (.bool p) (.bool q) (.bool (p || q))

/-- `abs(a)` -/
inductive Magnitude : OCell → OCell → Prop where
  | missing : Magnitude .missing .missing
  | positive {q : Rat} : 0 ≤ q → Magnitude (.num (.fin q)) (.num (.fin q))
  | negative {q : Rat} : q ≤ 0 → Magnitude (.num (.fin q)) (.num (.fin (-q)))
  | infinite {x : Ext} : Infinite x → Magnitude (.num x) (.num .posInf)

/-- The value of an expression in a row, given the values of its leaves. -/
def Means (row : Leaf → OCell) : PExpr → OCell → Prop
  | .leaf l, v => v = row l
  | .op o a b, v => ∃ x y, Means row a x ∧ Means row b y ∧ Result o x y v
  | .opScalar o a c, v => ∃ x, Means row a x ∧ Result o x c v
  | .scalarOp o c a, v => ∃ x, Means row a x ∧ Result o c x v
  | .neg a, v => ∃ x, Means row a x ∧ Result .sub (.num (.fin 0)) x v
  | .abs a, v => ∃ x, Means row a x ∧ Magnitude x v
  | .invert a, v => ∃ p : Bool, Means row a (.bool p) ∧ v = .bool (!p)
  | .isNull a, v => ∃ x, Means row a x ∧ ∃ p : Bool, v = .bool p ∧ (p = true ↔ x = .missing)
  | .isIn a l, v => ∃ x, Means row a x ∧ ∃ p : Bool, v = .bool p ∧ (p = true ↔ x ∈ l)

/-- Types whose values have an order. -/
def HasOrder (t : VFam) : Prop := t = .numeric ∨ t = .datetime ∨ t = .ordinal

/-- The comparisons by order, and those by equality. -/
def IsOrder (o : POp) : Prop := o = .lt ∨ o = .le ∨ o = .gt ∨ o = .ge
/-- See `IsOrder`. -/
def IsEquality (o : POp) : Prop := o = .eq ∨ o = .ne

/-- The type of `a o b` for features of two types. -/
inductive OpType : POp → VFam → VFam → VFam → Prop where
  | order {o t} : IsOrder o → HasOrder t → OpType o t t .boolean
  | equality {o} (t u) : IsEquality o → OpType o t u .boolean
  | arithmetic {o} : IsArithmetic o → OpType o .numeric .numeric .numeric
  | scaled : OpType .mul .numeric .boolean .numeric
  | scaled' : OpType .mul .boolean .numeric .numeric
  | both : OpType .mul .boolean .boolean .boolean
  | logic {o} : o = .and ∨ o = .or → OpType o .boolean .boolean .boolean

/-- The type of `a o v` and `v o a` for a feature and a scalar. -/
inductive ScalarType : POp → VFam → VFam → Prop where
  | order {o t} : IsOrder o → HasOrder t → ScalarType o t .boolean
  | equality {o} (t) : IsEquality o → ScalarType o t .boolean
  | arithmetic {o} : IsArithmetic o → ScalarType o .numeric .numeric

/-- `TypeOf e entity t`: all leaves of the expression are of one entity, and types fit. -/
inductive TypeOf : PExpr → String → VFam → Prop where
  | leaf (l : Leaf) : TypeOf (.leaf l) l.entity l.vtype
  | op {o a b e t u r} : TypeOf a e t → TypeOf b e u → OpType o t u r → TypeOf (.op o a b) e r
  | opScalar {o a e t r} (v) : TypeOf a e t → ScalarType o t r → TypeOf (.opScalar o a v) e r
  | scalarOp {o a e t r} (v) : TypeOf a e t → ScalarType o t r → TypeOf (.scalarOp o v a) e r
  | neg {a e} : TypeOf a e .numeric → TypeOf (.neg a) e .numeric
  | abs {a e} : TypeOf a e .numeric → TypeOf (.abs a) e .numeric
  | invert {a e} : TypeOf a e .boolean → TypeOf (.invert a) e .boolean
  | isNull {a e t} : TypeOf a e t → TypeOf (.isNull a) e .boolean
  | isIn {a e t} (l) : TypeOf a e t → TypeOf (.isIn a l) e .boolean

/-- Cells that fit a type: columns with an order hold numbers or are missing, boolean columns are complete. -/
def CellFits : VFam → OCell → Prop
  | .numeric, c | .datetime, c | .ordinal, c => c = .missing ∨ ∃ x, c = .num x
  | .boolean, c => ∃ b, c = .bool b
  | .other, _ => True

/-- The scalars of arithmetic and of comparisons by order are not text. -/
def ScalarsFit : PExpr → Prop
  | .leaf _ => True
  | .op _ a b => ScalarsFit a ∧ ScalarsFit b
  | .opScalar o a v => ScalarsFit a ∧ (¬ IsEquality o → NotText v)
  | .scalarOp o v a => ScalarsFit a ∧ (¬ IsEquality o → NotText v)
  | .neg a | .abs a | .invert a | .isNull a | .isIn a _ => ScalarsFit a

/-- The row `i` of the data. -/
def rowAt (data : Leaf → OColumn) (i : Nat) (l : Leaf) : OCell := ((data l).cells[i]?).getD .missing

/-- Every column has `n` cells, which fit the type of the feature. -/
def DataFits (data : Leaf → OColumn) (n : Nat) : Prop :=
  ∀ l, (data l).cells.length = n ∧ ∀ c ∈ (data l).cells, CellFits l.vtype c

/-- How an operator is written in names; `and` and `or` are written as functions. -/
def symbol : POp → String
  | .lt => "<" | .le => "<=" | .gt => ">" | .ge => ">=" | .eq => "=" | .ne => "!=" | .add => "+" | .sub => "-" | .mul => "*"
  | .div => "/" | .mod => "%" | .and => "AND" | .or => "OR"

/-- The text of `x o y`. -/
def written (x : String) (o : POp) (y : String) : String :=
  if o = .and ∨ o = .or then symbol o ++ "(" ++ x ++ ", " ++ y ++ ")" else x ++ " " ++ symbol o ++ " " ++ y

/-- Operators that give the same with the sides exchanged and, for those of order, turned round. -/
inductive Turned : POp → POp → Prop where
  | lt : Turned .lt .gt
  | le : Turned .le .ge
  | gt : Turned .gt .lt
  | ge : Turned .ge .le
  | eq : Turned .eq .eq
  | ne : Turned .ne .ne
  | add : Turned .add .add
  | mul : Turned .mul .mul

/-- How an expression is written: no parentheses, and a scalar goes to the right where the operator can be turned. -/
inductive Written (text : OCell → String) (listText : List OCell → String) : PExpr → String → Prop where
  | leaf (l : Leaf) : Written text listText (.leaf l) l.name
  | op {a b x y} (o : POp) : Written text listText a x → Written text listText b y →
      Written text listText (.op o a b) (written x o y)
  | opScalar {a x} (o : POp) (v : OCell) : Written text listText a x → Written text listText (.opScalar o a v) (written x o (text v))
  | turned {a x} {o o' : POp} (v : OCell) : Turned o o' → Written text listText a x →
      Written text listText (.scalarOp o v a) (written x o' (text v))
  | scalarOp {a x} {o : POp} (v : OCell) : (∀ o', ¬ Turned o o') → Written text listText a x →
      Written text listText (.scalarOp o v a) (written (text v) o x)
  | neg {a x} : Written text listText a x → Written text listText (.neg a) ("-(" ++ x ++ ")")
  | abs {a x} : Written text listText a x → Written text listText (.abs a) ("ABSOLUTE(" ++ x ++ ")")
  | invert {a x} : Written text listText a x → Written text listText (.invert a) ("NOT(" ++ x ++ ")")
  | isNull {a x} : Written text listText a x → Written text listText (.isNull a) ("IS_NULL(" ++ x ++ ")")
  | isIn {a x} (l : List OCell) : Written text listText a x →
      Written text listText (.isIn a l) (x ++ ".isin(" ++ listText l ++ ")")

/-- No leaf is a group-by feature. -/
def NoGroupby : PExpr → Prop
  | .leaf l => l.cls ≠ .groupby
  | .op _ a b => NoGroupby a ∧ NoGroupby b
  | .opScalar _ a _ | .scalarOp _ _ a | .neg a | .abs a | .invert a | .isNull a | .isIn a _ => NoGroupby a

/-- Text without spaces and without opening parentheses. -/
def Plain (s : String) : Prop := ' ' ∉ s.toList ∧ '(' ∉ s.toList

/-- At most one operator, on leaves in `L` and scalars in `V`; a scalar on the left is not text. -/
inductive Simple (L : Leaf → Prop) (V : OCell → Prop) : PExpr → Prop where
  | leaf {l : Leaf} : L l → Simple L V (.leaf l)
  | op {a b : Leaf} (o : POp) : L a → L b → Simple L V (.op o (.leaf a) (.leaf b))
  | opScalar {a : Leaf} {v : OCell} (o : POp) : L a → V v → Simple L V (.opScalar o (.leaf a) v)
  | scalarOp {a : Leaf} {v : OCell} (o : POp) : L a → V v → NotText v → Simple L V (.scalarOp o v (.leaf a))
  | neg {a : Leaf} : L a → Simple L V (.neg (.leaf a))
  | abs {a : Leaf} : L a → Simple L V (.abs (.leaf a))
  | invert {a : Leaf} : L a → Simple L V (.invert (.leaf a))
  | isNull {a : Leaf} : L a → Simple L V (.isNull (.leaf a))
  | isIn {a : Leaf} {l : List OCell} : L a → (∀ v ∈ l, V v) → Simple L V (.isIn (.leaf a) l)

/-- Names and texts that can be told apart: `text` writes a scalar and `listText` a list of scalars. -/
structure TellApart (L : Leaf → Prop) (V : OCell → Prop) (text : OCell → String) (listText : List OCell → String) : Prop where
  /-- names of features are plain and differ within an entity -/
  names : ∀ l, L l → Plain l.name
  leaves : ∀ a b, L a → L b → a.entity = b.entity → a.name = b.name → a = b
  /-- scalars are written differently, and those that are not text are written plainly -/
  scalars : ∀ v w, V v → V w → text v = text w → v = w
  plain : ∀ v, V v → NotText v → Plain (text v)
  lists : ∀ l m, (∀ v ∈ l, V v) → (∀ v ∈ m, V v) → listText l = listText m → l = m
  /-- no scalar is written like a name -/
  apart : ∀ v l, V v → L l → text v ≠ l.name

end FT.Spec
