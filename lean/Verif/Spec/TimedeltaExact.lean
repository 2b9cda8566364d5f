import Verif.Spec.Timedelta
/-!
# Specification of the timedelta built from a dictionary of documented units
-/
namespace FT.Spec

/-- The unit a documented spelling stands for. -/
def unitOf (s : String) : Option String :=
  (documentedUnits.find? fun x => x.2.contains s).map Prod.fst

/-- The amount last given for a unit, whatever the spelling. -/
def lastGiven (times : List (String × Int)) (c : String) : Int :=
  (((times.filter fun uv => unitOf uv.1 == some c).getLast?).map Prod.snd).getD 0

/-- The amounts a dictionary denotes: every unit once, at the place of its first mention, with the amount given last. -/
def amounts (times : List (String × Int)) : List (String × Int) :=
  ((times.filterMap fun uv => unitOf uv.1).eraseDups).map fun c => (c, lastGiven times c)

/-- The name of a unit as an argument of a calendar offset. -/
def calendarName (c : String) : String :=
  match c with
  | "ms" => "milliseconds"
  | "s" => "seconds"
  | "h" => "hours"
  | "m" => "minutes"
  | "d" => "days"
  | "w" => "weeks"
  | "o" => "observations"
  | "mo" => "months"
  | "Y" => "years"
  | c => c

/-- What is built: a number of observations has no length in time; one unit of fixed length is an exact duration; anything
else is a calendar offset, which knows no milliseconds; and nothing at all is refused. -/
def built (times : List (String × Int)) : Except PyErr Timedelta :=
  if (amounts times).any (fun uv => uv.1 == "o") then .ok ⟨amounts times, none⟩
  else match amounts times with
    | [] => .error .indexError
    | [(c, v)] =>
      if c ∈ ["mo", "Y"] then .ok ⟨[(c, v)], some (.relative [(calendarName c, v)])⟩
      else .ok ⟨[(c, v)], some (.absolute v c)⟩
    | a =>
      if a.any (fun uv => uv.1 == "ms") then .error .typeError
      else .ok ⟨a, some (.relative (a.map fun uv => (calendarName uv.1, uv.2)))⟩

/-- A version is written before another in the order of text: at the first differing character it has the smaller one, or it
ends first. -/
def TextBefore : List Char → List Char → Prop
  | [], s => s ≠ []
  | _ :: _, [] => False
  | a :: as, b :: bs => a < b ∨ a = b ∧ TextBefore as bs

end FT.Spec
