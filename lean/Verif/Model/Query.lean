import Verif.Model.Table
/-!
# Model of `EntitySet.query_by_values` and `EntitySet._handle_time`
(`featuretools/entityset/entityset.py` 974-1120), pandas case only.
-/
namespace FT

/-- The parts of an entity used by queries (`entityset/entity.py` 63-82): index and time index columns,
secondary time indexes (dictionary in insertion order), last time index series (label, value) and data. -/
structure Ent where
  id : String
  index : String
  timeIndex : Option String
  secondary : List (String × List String)
  lti : Option (List (Val × Val))
  df : Table
deriving Inhabited

/-- A training window. `span shift` is a window whose start for cutoff `t` is `shift t` (`time_last - training_window`,
for an absolute or a calendar window); `obs n` is a window in observations. -/
inductive Window where
  | span (shift : Int → Int)
  | obs (n : Nat)

/-- `dt.last_time_index.reindex(df.index)` (`entityset.py` 997) for one row. -/
def ltiOf (e : Ent) (lti : List (Val × Val)) (r : Row) : Val := (lti.lookup (r e.index)).getD .null

/-- `_handle_time`, `entityset.py` 983-1009: cutoff and training window on the time index.
The `Window.obs` case cannot reach it from `query_by_values` (assertion at 1055-1056); `time - window` raises there. -/
def handleTimeIndex (e : Ent) (rows : List Row) (timeLast : Option Int) (window : Option Window)
    (includeCutoff : Bool) : Except PyErr (List Row) :=
  match e.timeIndex with
  | none => .ok rows
  | some ti =>
    match timeLast with
    | none => .ok rows
    | some t =>
      if rows.isEmpty then .ok rows else
      let rows := if includeCutoff then rows.filter (fun r => (r ti).le t)
                  else rows.filter (fun r => (r ti).lt t)
      match window with
      | none => .ok rows
      | some (.obs _) => .error .other
      | some (.span shift) =>
        let mask : Row → Bool := fun r =>
          if includeCutoff then (r ti).gt (shift t) else (r ti).ge (shift t)
        let mask : Row → Bool := match e.lti with
          | some lti => fun r => mask r ||
              (if includeCutoff then (ltiOf e lti r).gt (shift t) else (ltiOf e lti r).ge (shift t))
          | none => mask
        .ok (rows.filter mask)

/-- One iteration of the loop over secondary time indexes for one row (`entityset.py` 1011-1022). -/
def maskRow (t : Int) (sec : String × List String) (r : Row) : Row :=
  if (r sec.1).ge t then fun c => if c ∈ sec.2 then .null else r c else r

/-- The whole loop over secondary time indexes (`entityset.py` 1011-1022). -/
def handleSecondary (e : Ent) (rows : List Row) (timeLast : Option Int) : List Row :=
  e.secondary.foldl (fun rows sec =>
    match timeLast with
    | none => rows
    | some t => if rows.isEmpty then rows else rows.map (maskRow t sec)) rows

/-- `_handle_time` (`entityset.py` 974-1024). -/
def handleTime (e : Ent) (rows : List Row) (timeLast : Option Int) (window : Option Window)
    (includeCutoff : Bool) : Except PyErr (List Row) := do
  let rows ← handleTimeIndex e rows timeLast window includeCutoff
  return handleSecondary e rows timeLast

/-- `_vals_to_series` (`entityset.py` 1094-1120) for a list of values. -/
def valsToSeries (vals : Option (List Val)) : Option (List Val) := vals.map fun l => dropna (dedup l)

/-- The choice of rows in `query_by_values` (`entityset.py` 1058-1070): all rows, no rows, or `isin`.
The re-indexing by the index column and the categories workaround (1072-1080) do not change rows. -/
def selectRows (e : Ent) (vals : Option (List Val)) (var : String) : Except PyErr (List Row) :=
  match vals with
  | none => .ok e.df.rows
  | some [] => .ok []
  | some (v :: vs) =>
    if e.df.cols.contains var then .ok (e.df.rows.filter fun r => (v :: vs).contains (r var))
    else .error .keyError

/-- `training_window.has_no_observations()` (`entityset.py` 1055-1056; `timedelta.py` 167-171). -/
def Window.hasNoObservations : Window → Bool
  | .span _ => true
  | .obs _ => false

/-- `df[columns]` when columns were asked for (`entityset.py` 1088-1089). -/
def selectColumns (e : Ent) (columns : Option (List String)) (rows : List Row) : Except PyErr Table :=
  match columns with
  | none => .ok { cols := e.df.cols, rows := rows }
  | some cs => Table.select { cols := e.df.cols, rows := rows } cs

/-- `EntitySet.query_by_values` (`entityset.py` 1026-1091). -/
def queryByValues (e : Ent) (vals : Option (List Val)) (var : Option String) (columns : Option (List String))
    (timeLast : Option Int) (window : Option Window) (includeCutoff : Bool) : Except PyErr Table :=
  if window.all Window.hasNoObservations then do
    let rows ← selectRows e (valsToSeries vals) (var.getD e.index)
    let rows ← handleTime e rows timeLast window includeCutoff
    selectColumns e columns rows
  else .error .assertionError

end FT
