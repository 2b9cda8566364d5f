import Verif.Model.Describe
/-!
# How features are described

Rules for the English description of a feature, written without the functions of the model.
-/
namespace FT.Spec

/-! ### Templates -/

/-- A piece of a template. -/
inductive Piece where
  | char (c : Char)
  /-- the next input -/
  | next
  /-- the input with this number, in decimal digits -/
  | at (digits : List Char)
  /-- the ordinal of the output -/
  | nth
deriving DecidableEq

/-- How a piece is written. -/
def Piece.source : Piece → List Char
  | .char c => if c = '{' then ['{', '{'] else if c = '}' then ['}', '}'] else [c]
  | .next => ['{', '}']
  | .at ds => '{' :: (ds ++ ['}'])
  | .nth => ['{', 'n', 't', 'h', '_', 's', 'l', 'i', 'c', 'e', '}']

/-- How a template is written. -/
def source (ps : List Piece) : List Char := ps.flatMap Piece.source

/-- Inputs are numbered, or taken in order, but not both; numbers have digits. -/
def WellNumbered (ps : List Piece) : Prop :=
  ((∀ p ∈ ps, p ≠ .next) ∨ (∀ p ∈ ps, ∀ ds, p ≠ .at ds)) ∧ ∀ ds, Piece.at ds ∈ ps → ds ≠ [] ∧ ∀ c ∈ ds, c.isDigit = true

/-- The number with these decimal digits. -/
inductive Digits : List Char → Nat → Prop where
  | nil : Digits [] 0
  | snoc {ds : List Char} {n : Nat} (c : Char) : Digits ds n → Digits (ds ++ [c]) (10 * n + (c.toNat - 48))

/-- `Filled args nth k ps s`: the template `ps` gives the text `s`, where `k` inputs were taken before. -/
inductive Filled (args : List String) (nth : Option String) : Nat → List Piece → List Char → Prop where
  | nil (k : Nat) : Filled args nth k [] []
  | char {k ps s} (c : Char) : Filled args nth k ps s → Filled args nth k (.char c :: ps) (c :: s)
  | next {k ps s a} : args[k]? = some a → Filled args nth (k + 1) ps s → Filled args nth k (.next :: ps) (a.toList ++ s)
  | at {k ps s ds n a} : Digits ds n → args[n]? = some a → Filled args nth k ps s → Filled args nth k (.at ds :: ps) (a.toList ++ s)
  | nth {k ps s a} : nth = some a → Filled args nth k ps s → Filled args nth k (.nth :: ps) (a.toList ++ s)

/-- The text `t` is a template that gives `s`. -/
def Gives (t : List Char) (args : List String) (nth : Option String) (s : String) : Prop :=
  ∃ ps, WellNumbered ps ∧ source ps = t ∧ Filled args nth 0 ps s.toList

/-! ### Primitives -/

/-- The template used for a primitive: the custom one of the primitive, the custom one of its name, its own. -/
inductive TemplateOf (C : GCustom) (p : GPrim) : (List Char ⊕ List (List Char)) → Prop where
  | prim {t} : C.prims.lookup p.ident = some t → TemplateOf C p t
  | name {t n} : C.prims.lookup p.ident = none → p.name = some n → C.primNames.lookup n = some t → TemplateOf C p t
  | own {t} : C.prims.lookup p.ident = none → (∀ n, p.name = some n → C.primNames.lookup n = none) → p.template = some t →
      TemplateOf C p t

/-- No template at all. -/
def NoTemplate (C : GCustom) (p : GPrim) : Prop :=
  C.prims.lookup p.ident = none ∧ (∀ n, p.name = some n → C.primNames.lookup n = none) ∧ p.template = none

/-- Templates are not empty. -/
def RealTemplate (t : List Char ⊕ List (List Char)) : Prop := t ≠ .inl [] ∧ t ≠ .inr []

/-- The name of a primitive in descriptions. -/
def Called (upper : String → String) (p : GPrim) (s : String) : Prop :=
  (∃ n, p.name = some n ∧ s = upper n) ∨ (p.name = none ∧ s = p.cls)

/-- `Says upper C p output inputs s`: the phrase for a primitive on inputs, or for one of its outputs (0 is the first). -/
inductive Says (upper : String → String) (C : GCustom) (p : GPrim) : Option Nat → List String → String → Prop where
  | text {t inputs s} : TemplateOf C p (.inl t) → RealTemplate (.inl t) → Gives t inputs none s → Says upper C p none inputs s
  | textOutput {t inputs s} (n : Nat) : TemplateOf C p (.inl t) → RealTemplate (.inl t) → Gives t inputs none s →
      Says upper C p (some n) inputs s
  | whole {t ts inputs s} : TemplateOf C p (.inr (t :: ts)) → Gives t inputs none s → Says upper C p none inputs s
  /-- a template for each output -/
  | output {t ts u inputs s} {n : Nat} : TemplateOf C p (.inr (t :: ts)) → ts[n]? = some u →
      Gives u inputs (some (convertToNth (n + 1))) s → Says upper C p (some n) inputs s
  /-- one template for all outputs -/
  | anyOutput {t u inputs s} (n : Nat) : TemplateOf C p (.inr [t, u]) → Gives u inputs (some (convertToNth (n + 1))) s →
      Says upper C p (some n) inputs s
  | generic {inputs name} : NoTemplate C p → Called upper p name →
      Says upper C p none inputs ("the result of applying " ++ name ++ " to " ++ ", ".intercalate inputs)
  | genericOutput {inputs name} (n : Nat) : NoTemplate C p → Called upper p name →
      Says upper C p (some n) inputs
        ("the " ++ convertToNth (n + 1) ++ " output from applying " ++ name ++ " to " ++ ", ".intercalate inputs)

/-! ### Features -/

/-- The custom description of a feature: for the feature, or else for its full name. -/
def Entry (C : GCustom) (entity name d : String) : Prop :=
  C.features.lookup (entity, name) = some d ∨
    (C.features.lookup (entity, name) = none ∧ C.names.lookup (entity ++ ": " ++ name) = some d)

/-- No custom description. -/
def NoEntry (C : GCustom) (entity name : String) : Prop :=
  C.features.lookup (entity, name) = none ∧ C.names.lookup (entity ++ ": " ++ name) = none

/-- Descriptions of features are not empty, and a feature is not mistaken for another one: name and entity written one
after the other tell them apart. -/
def Clear (C : GCustom) : Prop :=
  (∀ x ∈ C.features, x.2 ≠ "") ∧ ∀ x ∈ C.features, ∀ entity name, x.1.2 ++ x.1.1 = name ++ entity → x.1 = (entity, name)

/-- Without a leading article. -/
def WithoutThe (d s : String) : Prop := d = "the " ++ s ∨ (d = s ∧ ∀ r, d ≠ "the " ++ r)

/-- `Through f g s`: following direct features from `f` leads to `g`, which is not direct, and `s` names the instances passed. -/
inductive Through : GFeat → GFeat → String → Prop where
  | last {parent entity name g bs wh} : (∀ q e n l w, g ≠ .mk (.direct q) e n l w) →
      Through (.mk (.direct parent) entity name (g :: bs) wh) g (" the instance of \"" ++ parent ++ "\" associated with")
  | step {parent entity name h bs wh g s} : Through h g s →
      Through (.mk (.direct parent) entity name (h :: bs) wh) g
        (s ++ " the instance of \"" ++ parent ++ "\" associated with")

/-- Which rows an aggregation uses. -/
def rowsPhrase (child : String) : Option String → String
  | some s => "of the previous " ++ s ++ " of \"" ++ child ++ "\""
  | none => "of all instances of \"" ++ child ++ "\""

/-- What an aggregation is for each of. -/
def GroupName (C : GCustom) (entity index g : String) : Prop :=
  Entry C entity index g ∨ (NoEntry C entity index ∧ g = "\"" ++ index ++ "\" in \"" ++ entity ++ "\"")

mutual
/-- `Reads upper C f s`: the feature `f` is described by `s`. -/
inductive Reads (upper : String → String) (C : GCustom) : GFeat → String → Prop where
  | custom {k e n bs wh d} : Entry C e n d → Reads upper C (.mk k e n bs wh) d
  | column {e n bs wh d} : NoEntry C e n → Reads upper C (.mk (.identity d) e n bs wh) d
  | parent {p e n bs wh g s d} : NoEntry C e n → Through (.mk (.direct p) e n bs wh) g s → Reads upper C g d →
      Reads upper C (.mk (.direct p) e n bs wh) (d ++ " for" ++ s ++ " this instance of \"" ++ e ++ "\"")
  | transform {p e n bs ds s} : NoEntry C e n → ReadsAll upper C bs ds → Says upper C p none ds s → s ≠ "" →
      Reads upper C (.mk (.transform p) e n bs []) s
  | groupby {p e n bs g ds d t s} : NoEntry C e n → ReadsAll upper C bs ds → Reads upper C g d → WithoutThe d t →
      Says upper C p none ds s → s ≠ "" → Reads upper C (.mk (.groupby p) e n (bs ++ [g]) []) (s ++ " for each " ++ t)
  | agg {p child index prev e n bs wh ds s w g t} : NoEntry C e n → ReadsAll upper C bs ds → Says upper C p none ds s → s ≠ "" →
      Condition upper C wh w → GroupName C e index g → WithoutThe g t →
      Reads upper C (.mk (.agg p child index prev) e n bs wh) (s ++ " " ++ rowsPhrase child prev ++ w ++ " for each " ++ t)
  | transformOutput {i p e n e' n' bs ds s more wh} : NoEntry C e n → ReadsAll upper C bs ds → Says upper C p (some i) ds s → s ≠ "" →
      Reads upper C (.mk (.slice i) e n (.mk (.transform p) e' n' bs [] :: more) wh) s
  | aggOutput {i p child index prev e n e' n' bs wh ds s w g t more wh'} : NoEntry C e n → ReadsAll upper C bs ds →
      Says upper C p (some i) ds s → s ≠ "" → Condition upper C wh w → GroupName C e' index g → WithoutThe g t →
      Reads upper C (.mk (.slice i) e n (.mk (.agg p child index prev) e' n' bs wh :: more) wh')
        (s ++ " " ++ rowsPhrase child prev ++ w ++ " for each " ++ t)
/-- Several features. -/
inductive ReadsAll (upper : String → String) (C : GCustom) : List GFeat → List String → Prop where
  | nil : ReadsAll upper C [] []
  | cons {f fs d ds} : Reads upper C f d → ReadsAll upper C fs ds → ReadsAll upper C (f :: fs) (d :: ds)
/-- The phrase for a condition: its first input is the value. -/
inductive Condition (upper : String → String) (C : GCustom) : List GFeat → String → Prop where
  | none : Condition upper C [] ""
  | some {p e n b bs d v more} : Reads upper C b d → p.value = some v →
      Condition upper C (.mk (.transform p) e n (b :: bs) [] :: more) (" where " ++ d ++ " is " ++ v)
end

/-- The sentence made of a description: the first letter in upper case and a full stop. -/
def Sentence (upper : String → String) (d s : String) : Prop :=
  (d = "" ∧ s = upper "" ++ ".") ∨ ∃ (c : Char) (r : String), d = String.singleton c ++ r ∧ s = upper (String.singleton c) ++ r ++ "."

/-- A primitive has something to say about any `k` inputs. -/
def Sayable (upper : String → String) (C : GCustom) (p : GPrim) (output : Option Nat) (k : Nat) : Prop :=
  ∀ inputs : List String, inputs.length = k → ∃ s, s ≠ "" ∧ Says upper C p output inputs s

mutual
/-- Features built by the public constructors whose primitives have something to say, with conditions on a scalar. -/
inductive Tellable (upper : String → String) (C : GCustom) : GFeat → Prop where
  | identity {d e n bs wh} : Tellable upper C (.mk (.identity d) e n bs wh)
  | direct {p e n g bs wh} : Tellable upper C g → Tellable upper C (.mk (.direct p) e n (g :: bs) wh)
  | transform {p e n bs} : TellableAll upper C bs → Sayable upper C p none bs.length →
      Tellable upper C (.mk (.transform p) e n bs [])
  | groupby {p e n bs g} : TellableAll upper C bs → Tellable upper C g → Sayable upper C p none bs.length →
      Tellable upper C (.mk (.groupby p) e n (bs ++ [g]) [])
  | agg {p child index prev e n bs wh} : TellableAll upper C bs → Sayable upper C p none bs.length → ScalarCondition upper C wh →
      Tellable upper C (.mk (.agg p child index prev) e n bs wh)
  | transformOutput {i p e n e' n' bs more wh} : TellableAll upper C bs → Sayable upper C p (some i) bs.length →
      Tellable upper C (.mk (.slice i) e n (.mk (.transform p) e' n' bs [] :: more) wh)
  | aggOutput {i p child index prev e n e' n' bs wh more wh'} : TellableAll upper C bs → Sayable upper C p (some i) bs.length →
      ScalarCondition upper C wh →
      Tellable upper C (.mk (.slice i) e n (.mk (.agg p child index prev) e' n' bs wh :: more) wh')
/-- Several features. -/
inductive TellableAll (upper : String → String) (C : GCustom) : List GFeat → Prop where
  | nil : TellableAll upper C []
  | cons {f fs} : Tellable upper C f → TellableAll upper C fs → TellableAll upper C (f :: fs)
/-- No condition, or a primitive with a value on a feature. -/
inductive ScalarCondition (upper : String → String) (C : GCustom) : List GFeat → Prop where
  | none : ScalarCondition upper C []
  | some {p e n b bs v more} : Tellable upper C b → p.value = some v →
      ScalarCondition upper C (.mk (.transform p) e n (b :: bs) [] :: more)
end

end FT.Spec
