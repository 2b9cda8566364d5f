import Verif.Model.Plot
/-! # Pictures and texts of entity sets -/
namespace FT.Spec
open FT

/-- A name without the characters that separate names in pictures and texts. -/
def PlainId (s : String) : Prop := ∀ c ∈ s.toList, c ∉ ['\n', '[', '.', '-', ':', '|', '\\', '(']

/-- The names of an entity set are plain, and its entities have variables. -/
structure PlainSet (es : ESet) : Prop where
  entities : ∀ x ∈ es.entities, PlainId x.id ∧ x.vars ≠ [] ∧ ∀ v ∈ x.vars, PlainId v.id ∧ PlainId v.type
  rels : ∀ r ∈ es.rels, PlainId r.childE ∧ PlainId r.childV ∧ PlainId r.parentE ∧ PlainId r.parentV

/-- The lines about variables in a box: name and type, each line ended by `\l`. -/
def VariableLines : List Var → String → Prop
  | [], s => s = ""
  | v :: vs, s => ∃ t, VariableLines vs t ∧ s = v.id ++ " : " ++ v.type ++ "\\l" ++ t

/-- The text of an arrow: the name of the linking variables, once if it is the same. -/
def ArrowText (r : Relationship) (s : String) : Prop :=
  (r.parentV = r.childV ∧ s = r.parentV) ∨ (r.parentV ≠ r.childV ∧ s = r.parentV ++ " -> " ++ r.childV)

/-- The name of a file ends with one of the formats. -/
def NamesFormat (formats : List String) (s : String) : Prop := ∃ stem format, s = stem ++ "." ++ format ∧ '.' ∉ format.toList ∧ format ∈ formats

end FT.Spec
