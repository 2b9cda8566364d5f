/-!
# Tables

pandas data frames as lists of rows.  A row is a total function from column names
to cells; the list `cols` says which columns exist, and looking up a column that
does not exist is an error (`Except`).  Cells are missing values, integers
(numbers and times), strings or booleans; floats, dtypes and categories are not modelled.
-/
namespace FT

/-- A cell of a data frame. `null` stands for NaN / NaT / None. -/
inductive Val where
  | null
  | num (n : Int)
  | str (s : String)
  | bool (b : Bool)
deriving DecidableEq, Repr, Inhabited

/-- A row: the cell in every column. -/
abbrev Row := String → Val

/-- A data frame: column names in order and rows in order. -/
structure Table where
  cols : List String
  rows : List Row
deriving Inhabited

/-- Python exceptions, by class. -/
inductive PyErr where
  | keyError | typeError | valueError | attributeError | assertionError | lookupError | indexError
  | runtimeError | notImplemented | other
deriving DecidableEq, Repr, Inhabited

deriving instance DecidableEq for Except

/-- `column == value`-style tests on times: comparisons with NaT are false. -/
def Val.le (v : Val) (t : Int) : Bool := match v with | .num n => decide (n ≤ t) | _ => false
/-- `column < t` -/
def Val.lt (v : Val) (t : Int) : Bool := match v with | .num n => decide (n < t) | _ => false
/-- `column >= t` -/
def Val.ge (v : Val) (t : Int) : Bool := match v with | .num n => decide (t ≤ n) | _ => false
/-- `column > t` -/
def Val.gt (v : Val) (t : Int) : Bool := match v with | .num n => decide (t < n) | _ => false

/-- `pd.Series.drop_duplicates()`: keep the first occurrence of every element. -/
def dedup {α : Type} [DecidableEq α] : List α → List α
  | [] => []
  | a :: l => a :: (dedup l).filter (fun b => b ≠ a)

/-- `pd.Series.dropna()`. -/
def dropna (l : List Val) : List Val := l.filter (fun v => v ≠ .null)

/-- `df[columns]`: select columns; a missing column is a `KeyError`. -/
def Table.select (t : Table) (cols : List String) : Except PyErr Table :=
  if cols.all (fun c => t.cols.contains c) then .ok { cols := cols, rows := t.rows } else .error .keyError

/-- Build a row from a list of cells; other columns read as missing. -/
def Row.ofList (l : List (String × Val)) : Row := fun c => (l.lookup c).getD .null

/-- Insert before the first element that is not smaller. -/
def insertBy {α : Type} (le : α → α → Bool) (a : α) : List α → List α
  | [] => [a]
  | b :: bs => if le a b then a :: b :: bs else b :: insertBy le a bs

/-- A stable sort: the result Python's `sorted`, and pandas' `sort_values` with a stable algorithm, define
(the sorting algorithm itself is not modelled). -/
def isort {α : Type} (le : α → α → Bool) : List α → List α
  | [] => []
  | a :: as => insertBy le a (isort le as)

end FT
