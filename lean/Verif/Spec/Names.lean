import Verif.Model.Names
import Verif.Spec.Schema
/-!
# When the name of a feature is readable

The vocabulary of an entity set and its primitives, and the features made from it, said without the code that makes names.
-/
namespace FT.Spec
open FT

/-- The characters a name gives a meaning to. -/
def specials : List Char := ['(', ')', '[', ']', ',', '.', '=', ' ']

/-- An identifier: something, without the characters above. -/
def Word (s : String) : Prop := s ≠ "" ∧ ∀ c ∈ s.toList, c ∉ specials

/-- A value or an argument: no comma and no closing parenthesis. -/
def Phrase (s : String) : Prop := ∀ c ∈ s.toList, c ≠ ',' ∧ c ≠ ')'

/-- What the names are made of: the relationships, the index of each entity, the primitives and the windows of time. -/
structure Vocabulary where
  upper : String → String
  rels : List Relationship
  index : String → String
  prims : List NPrim
  windows : List Timedelta

/-- Nothing in the vocabulary can be mistaken for something else. -/
structure Vocabulary.Clear (V : Vocabulary) : Prop where
  once : V.rels.Nodup
  /-- No two relationships lead to and fro between two entities, and none from an entity to itself. -/
  oneWay : ∀ r ∈ V.rels, ∀ s ∈ V.rels, r.childE = s.parentE → r.parentE ≠ s.childE
  /-- A relationship arrives at the index of its parent. -/
  arrives : ∀ r ∈ V.rels, r.parentV = V.index r.parentE
  entities : ∀ r ∈ V.rels, Word r.childE ∧ Word r.parentE ∧ Word r.childV
  primNames : ∀ p ∈ V.prims, Word (V.upper p.name)
  primArgs : ∀ p ∈ V.prims, ∀ a ∈ p.args, Word a.1 ∧ Phrase a.2
  /-- Only the primitive that counts rows is called `COUNT`; it has no arguments. -/
  counting : ∀ p ∈ V.prims, p.count = true → V.upper p.name = "COUNT" ∧ p.args = [] ∧ p.transform = false
  /-- The upper-case name and the arguments tell the primitive. -/
  primsApart : ∀ p ∈ V.prims, ∀ q ∈ V.prims, V.upper p.name = V.upper q.name → p.args = q.args → p = q
  /-- A window has a name, which begins with a digit or a minus. -/
  windowNames : ∀ td ∈ V.windows, ∃ s, td.getName = .ok s ∧ Phrase s ∧
    ∃ c r, s.toList = c :: r ∧ (c.isDigit = true ∨ c = '-')
  windowsApart : ∀ a ∈ V.windows, ∀ b ∈ V.windows, a.getName = b.getName → a = b

/-- Whether the feature is the application of a primitive. -/
def Applied : NFeat → Prop
  | .agg .. => True
  | .trans .. => True
  | .groupby .. => True
  | _ => False

/-- `Made V e f`: `f` is a feature of entity `e` made from the vocabulary, without names given by hand and without the
primitives that make up names of their own; a comparison with a value only occurs as a condition. -/
inductive Made (V : Vocabulary) : String → NFeat → Prop
  | identity {e v : String} : Word v → Made V e (.identity v)
  | direct {r : Relationship} {b : NFeat} : r ∈ V.rels → Made V r.parentE b → Made V r.childE (.direct r b)
  | count {e child : String} {p : NPrim} {path : List Relationship} {wh : List NFeat} {prev : Option Timedelta} :
      p ∈ V.prims → p.count = true → path ≠ [] → SimpleChain V.rels child e path.reverse →
      (∀ w ∈ wh, (∀ v b, w ≠ .equal v b) → Made V child w) →
      (∀ v b, .equal v b ∈ wh → Phrase v) → (∀ v b, .equal v b ∈ wh → Made V child b) →
      wh.length ≤ 1 → (∀ td, prev = some td → td ∈ V.windows) →
      Made V e (.agg p path [.identity (V.index child)] wh prev)
  | agg {e child : String} {p : NPrim} {path : List Relationship} {bases wh : List NFeat} {prev : Option Timedelta} :
      p ∈ V.prims → p.transform = false → p.count = false → path ≠ [] → SimpleChain V.rels child e path.reverse →
      bases ≠ [] → (∀ b ∈ bases, Made V child b) →
      (∀ w ∈ wh, (∀ v b, w ≠ .equal v b) → Made V child w) →
      (∀ v b, .equal v b ∈ wh → Phrase v) → (∀ v b, .equal v b ∈ wh → Made V child b) →
      wh.length ≤ 1 → (∀ td, prev = some td → td ∈ V.windows) →
      Made V e (.agg p path bases wh prev)
  | trans {e : String} {p : NPrim} {bases : List NFeat} :
      p ∈ V.prims → p.transform = true → bases ≠ [] → (∀ b ∈ bases, Made V e b) → Made V e (.trans p bases)
  | groupby {e : String} {p : NPrim} {bases : List NFeat} {g : NFeat} :
      p ∈ V.prims → p.transform = true → bases ≠ [] → (∀ b ∈ bases, Made V e b) → Made V e g →
      Made V e (.groupby p bases g)
  | slice {e : String} {b : NFeat} {n : Nat} :
      Made V e b → Applied b → 1 < b.outputs → n < b.outputs → Made V e (.slice b n)

/-- The feature is not one output of another, nor taken over from such a feature. -/
def Whole : NFeat → Prop
  | .slice _ _ => False
  | .direct _ b => Whole b
  | _ => True

end FT.Spec
