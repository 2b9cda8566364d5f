import Verif.Model.Timedelta
/-!
# Specification for timedeltas
-/
namespace FT.Spec

/-- The documented spellings of each unit (`timedelta.py` docstring 10-17, `_check_timedelta` docstring):
canonical unit, then the spellings. -/
def documentedUnits : List (String × List String) :=
  [("ms", ["ms", "millisecond", "milliseconds", "Millisecond", "Milliseconds"]),
   ("s", ["s", "second", "seconds", "Second", "Seconds"]),
   ("h", ["h", "hour", "hours", "Hour", "Hours"]),
   ("m", ["m", "minute", "minutes", "Minute", "Minutes"]),
   ("d", ["d", "day", "days", "Day", "Days"]),
   ("w", ["w", "week", "weeks", "Week", "Weeks"]),
   ("o", ["o", "observation", "observations", "Observation", "Observations"]),
   ("mo", ["mo", "month", "months", "Month", "Months"]),
   ("Y", ["Y", "year", "years", "Year", "Years"])]

/-- The text reads "digits, blanks, letters" (a final line break is tolerated by the regular expression). -/
def ReadsAs (s : List Char) (digits : List Char) (blanks : Nat) (unit : List Char) : Prop :=
  (s = digits ++ List.replicate blanks ' ' ++ unit ∨ s = digits ++ List.replicate blanks ' ' ++ unit ++ ['\n']) ∧
  digits ≠ [] ∧ (∀ c ∈ digits, '0' ≤ c ∧ c ≤ '9') ∧
  unit ≠ [] ∧ (∀ c ∈ unit, ('a' ≤ c ∧ c ≤ 'z') ∨ ('A' ≤ c ∧ c ≤ 'Z'))

/-- Two timedeltas denote the same duration: the same amount for every unit. -/
def SameTimes (a b : Timedelta) : Prop := ∀ u, a.times.lookup u = b.times.lookup u

end FT.Spec
