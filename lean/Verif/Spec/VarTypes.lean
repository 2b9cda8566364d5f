import Verif.Model.VarTypes
/-!
# What the name of a variable type is
-/
namespace FT.Spec

/-- A letter from A to Z. -/
def CapitalLetter (c : Char) : Prop := 'A' ≤ c ∧ c ≤ 'Z'

/-- A letter from a to z. -/
def SmallLetter (c : Char) : Prop := 'a' ≤ c ∧ c ≤ 'z'

/-- A digit. -/
def DigitChar (c : Char) : Prop := '0' ≤ c ∧ c ≤ '9'

/-- A new word starts at a capital letter that is followed by a small letter or preceded by a small letter or a digit. -/
def WordStarts (prev c : Char) (next : Option Char) : Prop :=
  CapitalLetter c ∧ ((∃ n, next = some n ∧ SmallLetter n) ∨ SmallLetter prev ∨ DigitChar prev)

/-- What follows a character of a name in its type string: an underscore where a word starts, and lower case. -/
inductive SnakeAfter : Char → List Char → List Char → Prop
  | nil {p} : SnakeAfter p [] []
  | word {p c s t} : WordStarts p c s.head? → SnakeAfter c s t → SnakeAfter p (c :: s) ('_' :: c.toLower :: t)
  | same {p c s t} : ¬WordStarts p c s.head? → SnakeAfter c s t → SnakeAfter p (c :: s) (c.toLower :: t)

/-- A name and its type string. -/
inductive Snake : List Char → List Char → Prop
  | nil : Snake [] []
  | cons {c s t} : SnakeAfter c s t → Snake (c :: s) (c.toLower :: t)

/-- A name in camel case: letters and digits, starting with a capital letter, and no two capital letters in a row. -/
structure CamelCase (s : List Char) : Prop where
  chars : ∀ c ∈ s, CapitalLetter c ∨ SmallLetter c ∨ DigitChar c
  first : ∃ c, s.head? = some c ∧ CapitalLetter c
  single : ∀ (i : Nat) c d, s[i]? = some c → s[i + 1]? = some d → ¬(CapitalLetter c ∧ CapitalLetter d)

/-- A class is in a tree of classes. -/
inductive VBelow : VTree → VClass → Prop
  | top {c subs} : VBelow (.node c subs) c
  | sub {c subs t d} : t ∈ subs → VBelow t d → VBelow (.node c subs) d

/-- The variable classes other than `Variable` and `Text`. -/
def KnownType (T : VTypes) (c : VClass) : Prop := VBelow (.node T.root T.subs) c ∧ c ≠ T.root ∧ c ≠ T.text

/-- Different classes have different type strings. -/
def TypeStringsApart (T : VTypes) : Prop := ∀ c d, KnownType T c → KnownType T d → c.typeString = d.typeString → c = d

end FT.Spec
