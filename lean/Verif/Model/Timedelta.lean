import Verif.Model.Table
/-!
# Model of `featuretools/entityset/timedelta.py` and of the string case of `_check_timedelta`
(`featuretools/utils/wrangle.py` 12-73)

Values are integers (Python also allows floats).  `str.lower` is modelled on ASCII letters.
-/
namespace FT

/-- A dictionary: keys in insertion order, assignment keeps the position of an existing key. -/
abbrev Dict (α : Type) := List (String × α)

/-- `d[k] = v` -/
def Dict.set {α : Type} (d : Dict α) (k : String) (v : α) : Dict α :=
  match d with
  | [] => [(k, v)]
  | (k', v') :: d' => if k' = k then (k', v) :: d' else (k', v') :: Dict.set d' k v

/-- `d.get(k)` -/
def Dict.get? {α : Type} (d : Dict α) (k : String) : Option α := List.lookup k d

namespace Timedelta

/-- `_readable_units` (`timedelta.py` 34-44). -/
def readableUnits : Dict String :=
  [("ms", "Milliseconds"), ("s", "Seconds"), ("h", "Hours"), ("m", "Minutes"), ("d", "Days"),
   ("o", "Observations"), ("w", "Weeks"), ("Y", "Years"), ("mo", "Months")]

/-- `str.lower` -/
def lower (s : String) : String := String.ofList (s.toList.map Char.toLower)

/-- `_readable_to_unit` (`timedelta.py` 46). -/
def readableToUnit : Dict String := readableUnits.map fun kv => (lower kv.2, kv.1)

/-- `_absolute_units` (`timedelta.py` 31). -/
def absoluteUnits : List String := ["ms", "s", "h", "m", "d", "w"]

/-- `s.endswith('s')` -/
def endsWithS (s : String) : Bool := s.toList.getLast? == some 's'

/-- `make_singular` (`timedelta.py` 78-82). -/
def makeSingular (s : String) : String :=
  if s.toList.length > 1 && endsWithS s then String.ofList s.toList.dropLast else s

/-- `_check_unit_plural` (`timedelta.py` 84-90). -/
def checkUnitPlural (s : String) : String :=
  if s.toList.length > 2 && !endsWithS s then lower (s ++ "s")
  else if s.toList.length > 1 then lower s
  else s

/-- The unit normalisation of one key in `fix_units` (`timedelta.py` 126-128). -/
def fixUnit (u : String) : String :=
  let u := checkUnitPlural u
  (readableToUnit.get? u).getD u

/-- `fix_units` (`timedelta.py` 123-130). -/
def fixUnits (times : Dict Int) : Dict Int :=
  times.foldl (fun acc uv => Dict.set acc (fixUnit uv.1) uv.2) []

end Timedelta

/-- The internal time object (`timedelta.py` 103-111): `pd.Timedelta(value, unit)` or `relativedelta(**readable)`.
`external` is a `delta_obj` handed in by the caller (`timedelta.py` 61-62). -/
inductive DeltaObj where
  | absolute (value : Int) (unit : String)
  | relative (readable : Dict Int)
  | external (sign : Bool) (tag : Nat)
deriving DecidableEq, Repr

/-- A `Timedelta`: `times` and `delta_obj` (`timedelta.py` 48-64). -/
structure Timedelta where
  times : Dict Int
  delta : Option DeltaObj
deriving DecidableEq, Repr

namespace Timedelta

/-- `get_units` (`timedelta.py` 100-101). -/
def getUnits (times : Dict Int) : List String := times.map Prod.fst

/-- `is_absolute` (`timedelta.py` 161-165). -/
def isAbsolute (times : Dict Int) : Bool := (getUnits times).all fun u => absoluteUnits.contains u

/-- `has_multiple_units` (`timedelta.py` 173-177). -/
def hasMultipleUnits (times : Dict Int) : Bool := decide ((getUnits times).length > 1)

/-- `has_no_observations` (`timedelta.py` 167-171). `unit in "o"` is a substring test: only `"o"` and `""` are in `"o"`. -/
def hasNoObservations (times : Dict Int) : Bool := (getUnits times).all fun u => !(u == "o" || u == "")

/-- `lower_readable_times` (`timedelta.py` 132-137). -/
def lowerReadableTimes : Dict Int → Except PyErr (Dict Int)
  | [] => .ok []
  | (u, v) :: rest =>
    match readableUnits.get? u with
    | none => .error .keyError
    | some r => (lowerReadableTimes rest).map fun d => (lower r, v) :: d

/-- `get_unit_type` (`timedelta.py` 103-111). `relativedelta` has no argument `milliseconds` (and none for
observations, which the first test excludes). -/
def getUnitType (times : Dict Int) : Except PyErr (Option DeltaObj) :=
  if (getUnits times).contains "o" then .ok none
  else if isAbsolute times && !hasMultipleUnits times then
    match times with
    | [] => .error .indexError
    | (u, v) :: _ => .ok (some (.absolute v u))
  else do
    let r ← lowerReadableTimes times
    if (r.map Prod.fst).contains "milliseconds" then .error .typeError else .ok (some (.relative r))

/-- `Timedelta(times)` for a dictionary, or `Timedelta(value, unit)` as the one-entry dictionary
(`timedelta.py` 48-64, 113-121). -/
def make (times : Dict Int) (deltaObj : Option DeltaObj := none) : Except PyErr Timedelta :=
  let times := fixUnits times
  match deltaObj with
  | some d => .ok { times := times, delta := some d }
  | none => (getUnitType times).map fun d => { times := times, delta := d }

/-- What `get_arguments` returns (`timedelta.py` 150-159): scalars or lists. -/
inductive Args where
  | single (unit : String) (value : Int)
  | multi (units : List String) (values : List Int)
deriving DecidableEq, Repr

/-- `get_arguments` (`timedelta.py` 150-159). -/
def getArguments (td : Timedelta) : Args :=
  match td.times with
  | [(u, v)] => .single u v
  | times => .multi (times.map Prod.fst) (times.map Prod.snd)

/-- `from_dictionary` (`timedelta.py` 66-76). A shorter value list is an `IndexError`. -/
def fromDictionary : Args → Except PyErr Timedelta
  | .single u v => make [(u, v)]
  | .multi us vs =>
    if us.length ≤ vs.length then make ((us.zip vs).foldl (fun acc uv => Dict.set acc uv.1 uv.2) [])
    else .error .indexError

/-- `-delta_obj` -/
def DeltaObj.neg : DeltaObj → DeltaObj
  | .absolute v u => .absolute (-v) u
  | .relative r => .relative (r.map fun uv => (uv.1, -uv.2))
  | .external s t => .external (!s) t

/-- `__neg__` (`timedelta.py` 185-193). -/
def neg (td : Timedelta) : Except PyErr Timedelta :=
  let newTimes := td.times.map fun uv => (uv.1, -uv.2)
  match td.delta with
  | some d => make newTimes (some (DeltaObj.neg d))
  | none => make newTimes

/-- `"{} {}".format(value, self._readable_units[unit])` -/
def unitName (u : String) (v : Int) : Except PyErr String :=
  match readableUnits.get? u with
  | none => .error .keyError
  | some r => .ok (Int.repr v ++ " " ++ r)

/-- The loop of `get_name` for several units (`timedelta.py` 143-147). -/
def namesOf : Dict Int → Except PyErr (List String)
  | [] => .ok []
  | (u, v) :: rest => do
    let n ← unitName (if v = 1 then makeSingular u else u) v
    let ns ← namesOf rest
    return n :: ns

/-- `get_name` (`timedelta.py` 139-148). Appending a blank after every part and cutting the last one is joining with
blanks; no unit at all is an `IndexError`. -/
def getName (td : Timedelta) : Except PyErr String :=
  match td.times with
  | [] => .error .indexError
  | [(u, v)] => unitName u v
  | times => (namesOf times).map fun ns => String.intercalate " " ns

/-- `__eq__` (`timedelta.py` 179-183): dictionaries compare without regard to order. -/
def eq (a b : Timedelta) : Bool :=
  a.times.all (fun kv => b.times.get? kv.1 == some kv.2) && b.times.all (fun kv => a.times.get? kv.1 == some kv.2)

/-! ### Strings -/

def isDigitC (c : Char) : Bool := decide (48 ≤ c.toNat) && decide (c.toNat ≤ 57)
def isAlphaC (c : Char) : Bool :=
  (decide (65 ≤ c.toNat) && decide (c.toNat ≤ 90)) || (decide (97 ≤ c.toNat) && decide (c.toNat ≤ 122))

/-- `re.match('([0-9]+) *([a-zA-Z]+)$', td)` (`wrangle.py` 61-63). The three character classes are disjoint, so greedy
matching never has to give anything back; `$` also matches before a final newline. No match makes `match.groups()`
raise `AttributeError`. -/
def scan (s : List Char) : Except PyErr (Nat × String) :=
  let ds := s.takeWhile isDigitC
  let s1 := s.dropWhile isDigitC
  let s2 := s1.dropWhile (· == ' ')
  let us := s2.takeWhile isAlphaC
  let s3 := s2.dropWhile isAlphaC
  if !ds.isEmpty && !us.isEmpty && (s3 == [] || s3 == ['\n']) then
    .ok (Nat.ofDigitChars 10 ds 0, String.ofList us)
  else .error .attributeError

/-- `_check_timedelta` on a string (`wrangle.py` 60-73). -/
def parse (s : String) : Except PyErr Timedelta :=
  match scan s.toList with
  | .ok (n, u) => make [(u, (n : Int))]
  | .error e => .error e

end Timedelta
end FT
