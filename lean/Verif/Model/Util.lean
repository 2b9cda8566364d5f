import Verif.Model.Timedelta
/-!
# Model of small utilities
`utils/gen_utils.py` (schema versions), `utils/description_utils.py`, `utils/time_utils.py`, and of the cutoff time helpers
of `computational_backends/utils.py`.
-/
namespace FT

/-! ### Schema versions (`utils/gen_utils.py` 48-79) -/

/-- `s.split('.')` -/
def splitDot : List Char → List (List Char)
  | [] => [[]]
  | c :: cs =>
    if c = '.' then [] :: splitDot cs
    else match splitDot cs with
      | [] => [[c]]
      | w :: ws => (c :: w) :: ws

/-- `a < b` on strings: by code points, a proper prefix is smaller. -/
def strLt : List Char → List Char → Bool
  | [], [] => false
  | [], _ :: _ => true
  | _ :: _, [] => false
  | a :: as, b :: bs => if a.toNat < b.toNat then true else if b.toNat < a.toNat then false else strLt as bs

/-- The `zip_longest` loop (`gen_utils.py` 66-71): `true` when the upgrade warning is given.  The fill value is the integer
`0`, and comparing it with a string is a `TypeError`. -/
def upgradeWarning : List (List Char) → List (List Char) → Except PyErr Bool
  | [], [] => .ok false
  | c :: cs, s :: ss =>
    if strLt s c then .ok false else if strLt c s then .ok true else upgradeWarning cs ss
  | [], _ :: _ => .error .typeError
  | _ :: _, [] => .error .typeError

/-- Which of the two warnings loading gives. -/
structure VersionWarnings where
  upgrade : Bool
  outdated : Bool
deriving DecidableEq, Repr

/-- `check_schema_version` (`gen_utils.py` 48-79) for the supported version `current` and the saved one. A description
without a version has `None`, which has no `split`. -/
def checkSchemaVersion (current : String) (saved : Option String) : Except PyErr VersionWarnings :=
  match saved with
  | none => .error .attributeError
  | some saved =>
    let c := splitDot current.toList
    let s := splitDot saved.toList
    match upgradeWarning c s with
    | .error e => .error e
    | .ok up => .ok { upgrade := up, outdated := strLt (s.headD []) (c.headD []) }

/-! ### Ordinals and time units -/

/-- `convert_to_nth` (`utils/description_utils.py` 1-11). -/
def convertToNth (n : Int) : String :=
  let e := n % 10
  if e = 1 ∧ n % 100 ≠ 11 then Int.repr n ++ "st"
  else if e = 2 ∧ n % 100 ≠ 12 then Int.repr n ++ "nd"
  else if e = 3 ∧ n % 100 ≠ 13 then Int.repr n ++ "rd"
  else Int.repr n ++ "th"

/-- `unit_divs` (`utils/time_utils.py` 63-70); floats are exact rationals here. -/
def unitDivs : Dict Rat :=
  [("years", 31540000), ("months", 2628000), ("days", 86400), ("hours", 3600), ("minutes", 60), ("seconds", 1),
   ("milliseconds", 1 / 1000), ("nanoseconds", 1 / 1000000000)]

/-- `convert_time_units` (`utils/time_utils.py` 53-74). -/
def convertTimeUnits (secs : Rat) (unit : String) : Except PyErr Rat :=
  match unitDivs.get? unit with
  | none => .error .valueError
  | some d => .ok (secs / d)

/-! ### `make_temporal_cutoffs` (`utils/time_utils.py` 4-50)

Times and windows are integers (nanoseconds). -/

/-- `pd.date_range(end=end, periods=n, freq=w)`: `n` times ending at `end`, `w` apart. -/
def rangeToEnd (stop : Int) (n : Nat) (w : Int) : List Int :=
  (List.range n).map fun (j : Nat) => stop - w * ((n : Int) - 1 - (j : Int))

/-- `pd.date_range(start=start, end=stop, freq=w)` for `w > 0`: from `start` in steps of `w` up to `stop`. -/
def rangeFromStart (start stop w : Int) : List Int :=
  if stop < start then [] else (List.range (((stop - start) / w).toNat + 1)).map fun (j : Nat) => start + w * (j : Int)

/-- One day in nanoseconds: the default frequency of `pd.date_range`. -/
def dayNs : Int := 86400000000000

/-- The body of the loop for one instance (`time_utils.py` 36-47). pandas requires three of `start`, `end`, `periods` and
`freq`, with the frequency defaulting to one day when any other is missing. `Timedelta / int` truncates to whole
nanoseconds. Frequencies that are not positive are not modelled (`other`). -/
def cutoffsFor (stop : Int) (window : Option Int) (num : Option Nat) (start : Option Int) : Except PyErr (List Int) :=
  match window, num, start with
  | some w, some n, none => if 0 < w then .ok (rangeToEnd stop n w) else .error .other
  | some w, none, some s => if 0 < w then .ok (rangeFromStart s stop w) else .error .other
  | none, some n, some s =>
    if n = 1 then .error .other
    else
      let w := (stop - s).tdiv ((n : Int) - 1)
      if 0 < w then .ok (rangeToEnd stop n w) else .error .other
  | none, some n, none => .ok (rangeToEnd stop n dayNs)
  | none, none, some _ => .error .typeError
  | some _, none, none => .error .valueError
  | none, none, none => .error .valueError
  | some _, some _, some _ => .error .valueError

/-- The loop over instances: `zip(instance_ids, cutoffs)` with `start[i]` read only when `start` is given
(`time_utils.py` 34-49). -/
def temporalLoop {ι : Type} (window : Option Int) (num : Option Nat) :
    List (ι × Int) → Option (List Int) → Except PyErr (List (ι × Int))
  | [], _ => .ok []
  | (i, t) :: rest, none => do
    let ts ← cutoffsFor t window num none
    let more ← temporalLoop window num rest none
    return ts.map (fun x => (i, x)) ++ more
  | (i, t) :: rest, some starts =>
    match starts with
    | [] => .error .indexError
    | s :: ss => do
      let ts ← cutoffsFor t window num (some s)
      let more ← temporalLoop window num rest (some ss)
      return ts.map (fun x => (i, x)) ++ more

/-- `make_temporal_cutoffs` (`time_utils.py` 29-50). Concatenating nothing is a `ValueError`. -/
def makeTemporalCutoffs {ι : Type} (ids : List ι) (cutoffs : List Int) (window : Option Int) (num : Option Nat)
    (start : Option (List Int)) : Except PyErr (List (ι × Int)) :=
  if window.isSome && num.isSome && start.isSome then .error .valueError
  else if (ids.zip cutoffs).isEmpty then .error .valueError
  else temporalLoop window num (ids.zip cutoffs) start

/-! ### Binning of cutoff times (`computational_backends/utils.py` 23-30, 55-76) -/

/-- Length in nanoseconds of pandas' frequency units used by `datetime_round`. -/
def unitNs : Dict Int :=
  [("ms", 1000000), ("s", 1000000000), ("t", 60000000000), ("h", 3600000000000), ("d", 86400000000000)]

/-- `datetime_round` (`computational_backends/utils.py` 55-76). Times are integers (nanoseconds since the epoch) and
`dt.floor(freq)` is rounding down to a multiple of the frequency. With several units the function falls off its end and
returns `None`. A frequency that is not positive, or a unit pandas does not know, is not modelled (`other`). -/
def datetimeRound (times : List Int) (freq : Timedelta) : Except PyErr (Option (List Int)) :=
  if !Timedelta.isAbsolute freq.times then .error .valueError
  else match freq.times with
    | [(unit, value)] =>
      let unit₁ := if unit = "m" then "t" else unit
      let uv := if unit₁ = "w" then ("d", value * 7) else (unit₁, value)
      match unitNs.get? uv.1 with
      | none => .error .other
      | some ns =>
        let w := uv.2 * ns
        if 0 < w then .ok (some (times.map fun t => t / w * w)) else .error .other
    | _ => .ok none

/-- The integer branch of `bin_cutoff_times` (`computational_backends/utils.py` 25-26): true division, exact here. -/
def binInt (size : Int) (times : List Rat) : List Rat := times.map fun x => x / (size : Rat) * (size : Rat)

/-! ### Cutoff tables (`computational_backends/utils.py` 209-276) -/

/-- A data frame as a list of named columns. -/
abbrev Frame := List (String × List Val)

namespace Frame
/-- `df.columns` -/
def columns (f : Frame) : List String := f.map Prod.fst
/-- `df.rename(columns={a: b})` -/
def rename (f : Frame) (a b : String) : Frame := f.map fun c => if c.1 = a then (b, c.2) else c
/-- `df[c]` -/
def col? (f : Frame) (c : String) : Option (List Val) := f.lookup c
end Frame

/-- `xs.duplicated().sum() == 0` -/
def noDup {α : Type} [DecidableEq α] : List α → Bool
  | [] => true
  | a :: as => !as.contains a && noDup as

/-- The checks after the renamings (`computational_backends/utils.py` 238-248). -/
def validateTail (index : String) (ti : Option String) (f₂ : Frame) : Except PyErr Frame :=
  if f₂.columns.contains "instance_id" && f₂.columns.contains index && "instance_id" != index then
    .error .attributeError
  else if f₂.columns.contains "time" && (ti.map f₂.columns.contains).getD false && ti != some "time" then
    .error .attributeError
  else match f₂.col? "instance_id", f₂.col? "time" with
    | some ids, some ts => if noDup (ids.zip ts) then .ok f₂ else .error .assertionError
    | _, _ => .error .keyError

/-- The time column (`computational_backends/utils.py` 230-235). Without a time index the renaming does nothing. -/
def renameTime (ti : Option String) (f₁ : Frame) : Except PyErr Frame :=
  if f₁.columns.contains "time" then .ok f₁
  else match ti with
    | none => .ok f₁
    | some t => if !f₁.columns.contains t then .error .attributeError else .ok (f₁.rename t "time")

/-- `_validate_cutoff_time` (`computational_backends/utils.py` 220-248) on a pandas data frame. -/
def validateCutoffTime (index : String) (ti : Option String) (f : Frame) : Except PyErr Frame :=
  if !f.columns.contains "instance_id" && !f.columns.contains index then .error .attributeError
  else match renameTime ti (if f.columns.contains "instance_id" then f else f.rename index "instance_id") with
    | .error e => .error e
    | .ok f₂ => validateTail index ti f₂

/-- What the caller passes as `cutoff_time`. -/
inductive CutoffArg where
  | frame (f : Frame)
  | pyList
  | single (v : Val)

/-- `_validate_cutoff_time` (`computational_backends/utils.py` 209-253). Dask frames are computed first. -/
def validateCutoffArg (index : String) (timeIndex : Option String) : CutoffArg → Except PyErr CutoffArg
  | .frame f => (validateCutoffTime index timeIndex f).map .frame
  | .pyList => .error .typeError
  | .single v => .ok (.single v)

/-- Kinds of time column values. -/
inductive TimeKind where | numeric | datetime | neither
deriving DecidableEq, Repr

/-- `_check_cutoff_time_type` (`computational_backends/utils.py` 256-276); the entity set's time type may be unset. -/
def checkCutoffTimeType (kind : TimeKind) (esType : Option TimeKind) : Except PyErr Unit :=
  if esType = some .numeric ∧ kind ≠ .numeric then .error .typeError
  else if esType = some .datetime ∧ kind ≠ .datetime then .error .typeError
  else .ok ()

end FT
