import Verif.Model.Util
/-!
# Specifications for the small utilities, in the words of the properties
-/
namespace FT.Spec

/-- Versions as numbers: `NewerThan v w` when at the first difference `v` is larger. -/
def NewerThan : List Nat → List Nat → Prop
  | [], _ => False
  | _ :: _, [] => True
  | a :: as, b :: bs => b < a ∨ (a = b ∧ NewerThan as bs)

/-- How a version is written: components in decimal, separated by dots. -/
def showVersion (v : List Nat) : String := String.intercalate "." (v.map Nat.repr)

/-- The English ordinal suffix of a number with the given tens and ones digit. -/
def ordinalSuffix (tens ones : Nat) : String :=
  if tens = 1 then "th" else
    match ones with
    | 1 => "st"
    | 2 => "nd"
    | 3 => "rd"
    | _ => "th"

/-- Neighbours differ by `w`. -/
def Spaced (w : Int) : List Int → Prop
  | a :: b :: rest => b = a + w ∧ Spaced w (b :: rest)
  | _ => True

/-- `b` is the largest multiple of `w` not above `t`. -/
def IsFloor (w t b : Int) : Prop := (∃ k, b = k * w) ∧ b ≤ t ∧ ∀ k, k * w ≤ t → k * w ≤ b

/-- Exactly one of the two names (or the single name) is a column. -/
def OneUsable (cols : List String) (fixed : String) (own : Option String) : Prop :=
  match own with
  | none => fixed ∈ cols
  | some o => if o = fixed then fixed ∈ cols else (fixed ∈ cols ∧ o ∉ cols) ∨ (fixed ∉ cols ∧ o ∈ cols)

/-- The data of the usable column. -/
def UsableData (f : Frame) (fixed : String) (own : Option String) (data : List Val) : Prop :=
  (fixed, data) ∈ f ∨ (fixed ∉ f.columns ∧ ∃ o, own = some o ∧ (o, data) ∈ f)

/-- Nanoseconds per absolute unit of a `Timedelta`. -/
def nsOf (unit : String) : Option Int :=
  match unit with
  | "ms" => some 1000000
  | "s" => some 1000000000
  | "m" => some (60 * 1000000000)
  | "h" => some (3600 * 1000000000)
  | "d" => some (86400 * 1000000000)
  | "w" => some (7 * 86400 * 1000000000)
  | _ => none

/-- The renaming applied to an accepted table: the index column becomes `instance_id`, the time index column `time`. -/
def normalise (index : String) (ti : Option String) (f : Frame) : Frame :=
  f.map fun c => if c.1 = index then ("instance_id", c.2) else if ti = some c.1 then ("time", c.2) else c

end FT.Spec
