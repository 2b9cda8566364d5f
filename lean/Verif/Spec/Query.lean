import Verif.Model.Query
/-!
# Specification of queries: which rows, which cells
-/
namespace FT.Spec

/-- The row is one of the requested ones: no request means all rows; a missing value never matches. -/
def Wanted (vals : Option (List Val)) (col : String) (r : Row) : Prop :=
  ∀ l, vals = some l → r col ∈ l ∧ r col ≠ .null

/-- The value is a time satisfying `P`. -/
def TimeIs (P : Int → Prop) (v : Val) : Prop := ∃ n, v = .num n ∧ P n

/-- The row is no later than the cutoff (strictly earlier when the cutoff itself is excluded). -/
def BeforeCutoff (e : Ent) (timeLast : Option Int) (incl : Bool) (r : Row) : Prop :=
  ∀ ti t, e.timeIndex = some ti → timeLast = some t →
    TimeIs (fun n => if incl then n ≤ t else n < t) (r ti)

/-- The last time recorded for the row's instance, if the entity has last times. -/
def lastTime (e : Ent) (r : Row) : Val :=
  match e.lti with
  | none => .null
  | some l => (l.lookup (r e.index)).getD .null

/-- The row, or an event below it, lies inside the training window that starts at `start t`. -/
def InWindow (e : Ent) (timeLast : Option Int) (window : Option (Int → Int)) (incl : Bool) (r : Row) : Prop :=
  ∀ ti t start, e.timeIndex = some ti → timeLast = some t → window = some start →
    TimeIs (fun n => if incl then start t < n else start t ≤ n) (r ti) ∨
    TimeIs (fun n => if incl then start t < n else start t ≤ n) (lastTime e r)

/-- The cell in column `c` of row `r` is not yet known at the cutoff: `c` depends on a secondary time that is
not before the cutoff. -/
def NotYetKnown (e : Ent) (timeLast : Option Int) (r : Row) (c : String) : Prop :=
  ∃ sec ∈ e.secondary, c ∈ sec.2 ∧ ∃ t, timeLast = some t ∧ TimeIs (fun n => t ≤ n) (r sec.1)

/-- `out` shows row `r` with exactly the not-yet-known cells blanked. -/
def ShowsRow (e : Ent) (timeLast : Option Int) (r out : Row) : Prop :=
  ∀ c, (NotYetKnown e timeLast r c → out c = .null) ∧ (¬ NotYetKnown e timeLast r c → out c = r c)

end FT.Spec
