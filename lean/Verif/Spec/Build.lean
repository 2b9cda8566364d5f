import Verif.Model.Build
import Verif.Spec.Schema
import Verif.Spec.Calculator
/-!
# Which features can be built by hand
-/
namespace FT.Spec

/-- What is given stands for a feature: a variable for its identity feature. -/
inductive StandsFor : BArg → BFeat → Prop
  | feature (f) : StandsFor (.feature f) f
  | var (f) : StandsFor (.var f) f

/-- The features of a list, in order. -/
inductive StandForAll : List BArg → List BFeat → Prop
  | nil : StandForAll [] []
  | cons {a f l fs} : StandsFor a f → StandForAll l fs → StandForAll (a :: l) (f :: fs)

/-- The base features, given alone or as a list. -/
def GivenBases : BList → List BFeat → Prop
  | .many l, fs => StandForAll l fs
  | .one a, fs => StandForAll [a] fs

/-- Two features see their entity alike: one id object, the same index, time indexes and variables. -/
structure SeenAlike (a b : BuildEnt) : Prop where
  id : a.obj = b.obj
  index : a.index = b.index
  timeIndex : a.timeIndex = b.timeIndex
  secondary : a.secondary = b.secondary
  count : a.vars.length = b.vars.length
  vars : ∀ v, v ∈ a.vars ↔ v ∈ b.vars

/-- Base features a primitive can be applied to: at least one, each with one output, all of the entity of the first. -/
structure Usable (fs : List BFeat) (f : BFeat) : Prop where
  first : fs.head? = some f
  single : ∀ g ∈ fs, g.outputs ≤ 1
  together : ∀ g ∈ fs, SeenAlike f.ent g.ent

/-- The types of the features fit one of the signatures, as far as both lists go. -/
def TypesFit (sub : String → String → Bool) (p : BPrim) (fs : List BFeat) : Prop :=
  ∀ alts, p.inputs = some alts →
    ∃ t ∈ alts, ∀ (i : Nat) ty f, t[i]? = some ty → fs[i]? = some f → sub f.vtype ty = true

/-- The only chain of relationships from the child up to another entity. -/
structure OnlyChain (rels : List Relationship) (child parent : String) (p : List Relationship) : Prop where
  chain : SimpleChain rels child parent p
  only : ∀ q, SimpleChain rels child parent q → q = p
  apart : child ≠ parent

/-- No condition was given, or one on the child entity. -/
inductive WhereGiven (child : String) : Option BArg → Option BFeat → Prop
  | none : WhereGiven child none none
  | some {a w} : StandsFor a w → w.ent.id = child → WhereGiven child (some a) (some w)

/-- No window was given, or one that can be read, and the time index of the entity is a time. -/
inductive WindowGiven (sub : String → String → Bool) (ent : BuildEnt) :
    Option (Except PyErr Timedelta) → Option Timedelta → Prop
  | none : WindowGiven sub ent none none
  | some {td ti ty} : ent.timeIndex = some ti → ent.vars.lookup ti = some ty →
      sub ty "Datetime" = true ∨ sub ty "DatetimeTimeIndex" = true → WindowGiven sub ent (some (.ok td)) (some td)

/-- A path as it can be given: against the relationships, from the parent to the child. -/
structure EndsFit (path : RelPath) (parent child : String) : Prop where
  down : ∀ s ∈ path, s.1 = false
  starts : ∃ s, path.head? = some s ∧ s.2.parentE = parent
  ends : ∃ s, path.getLast? = some s ∧ s.2.childE = child

end FT.Spec
