import Verif.Model.DfsInput
/-!
# What the arguments of Deep Feature Synthesis mean
-/
namespace FT.Spec

/-- The library offers a class, among its aggregation (or else transform) primitives, under a name in lower case. -/
def Offers (lib : Library) (aggregation : Bool) (n : String) (c : LibClass) : Prop :=
  (∃ a, (a, c) ∈ lib.attrs) ∧ (if aggregation then c.aggregation else c.transform) = true ∧ c.name ≠ "" ∧ lib.lower c.name = n

/-- Different classes have different names, in lower case. -/
def LowerNamesApart (lib : Library) (aggregation : Bool) : Prop :=
  ∀ n c d, Offers lib aggregation n c → Offers lib aggregation n d → c = d

/-- What is given stands for a primitive: a text for the class of that name, whatever its case; a class for what it makes. -/
inductive PrimGiven (lib : Library) (aggregation : Bool) : RawPrim → Prim → Prop
  | text {s c p} : Offers lib aggregation (lib.lower s) c → c.make = .ok p → PrimGiven lib aggregation (.text s) p
  | cls {c p} : c.make = .ok p → PrimGiven lib aggregation (.cls c) p
  | inst {p} : PrimGiven lib aggregation (.inst p) p

/-- Two lists of equal length, related element by element. -/
inductive EachOf {α β : Type} (R : α → β → Prop) : List α → List β → Prop
  | nil : EachOf R [] []
  | cons {a b as bs} : R a b → EachOf R as bs → EachOf R (a :: as) (b :: bs)

/-- The options whose value is a list of entities. -/
def entityOptions : List String :=
  ["ignore_entities", "include_entities", "ignore_groupby_entities", "include_groupby_entities"]

/-- The options whose value is a dict from entities to lists of variables. -/
def variableOptions : List String :=
  ["ignore_variables", "include_variables", "ignore_groupby_variables", "include_groupby_variables"]

/-- Every option is known and has a value of its type. -/
def OptionsProper (d : List (String × OptVal)) : Prop :=
  ∀ k v, (k, v) ∈ d → k ∈ entityOptions ∧ (∃ l, v = .list l) ∨ k ∈ variableOptions ∧ ∃ m, v = .dict m ∧ ∀ p ∈ m, p.2 ≠ none

/-- The list given for an option. -/
def listFor (d : List (String × OptVal)) (k : String) : Option (List String) :=
  match d.lookup k with
  | some (.list l) => some l
  | _ => none

/-- The dict given for an option. -/
def dictFor (d : List (String × OptVal)) (k : String) : Option VarDict :=
  match d.lookup k with
  | some (.dict m) => some (m.map fun p => (p.1, p.2.getD []))
  | _ => none

/-- The options as they were given; nothing is ignored unless it is said. -/
def meant (d : List (String × OptVal)) : POption :=
  { ignoreEntities := (listFor d "ignore_entities").getD []
    ignoreVars := (dictFor d "ignore_variables").getD []
    includeEntities := listFor d "include_entities"
    includeVars := dictFor d "include_variables"
    ignoreGbEntities := listFor d "ignore_groupby_entities"
    ignoreGbVars := dictFor d "ignore_groupby_variables"
    includeGbEntities := listFor d "include_groupby_entities"
    includeGbVars := dictFor d "include_groupby_variables" }

/-- The options given for a primitive, in order. -/
def optionsGiven : RawOptions → List RawOption
  | .many l => l
  | .one o => [o]

/-- A proper option dict and what it means. -/
def OptionMeans (r : RawOption) (o : POption) : Prop := ∃ d, r = .dict d ∧ OptionsProper d ∧ o = meant d

/-- The number of inputs of the primitive a key stands for; a name is that of an aggregation primitive, else of a transform
primitive. -/
inductive TakesInputs (lib : Library) : RawKey → Nat → Prop
  | agg {s c} : Offers lib true s c → TakesInputs lib (.text s) c.arity
  | trans {s c} : (∀ d, ¬Offers lib true s d) → Offers lib false s c → TakesInputs lib (.text s) c.arity
  | cls {c} : TakesInputs lib (.cls c) c.arity
  | inst {p} : TakesInputs lib (.inst p) p.inputs.length

/-- What a key stands for: a name or one instance. -/
def keyFor : RawKey → PKey
  | .text s => .named s
  | .cls c => .named c.name
  | .inst p => .inst p

/-- An entry of `primitive_options` that can be read: its options are proper, and a list has one for each input. -/
structure EntryOk (lib : Library) (e : List RawKey × RawOptions) : Prop where
  proper : ∀ r ∈ optionsGiven e.2, ∃ d, r = .dict d ∧ OptionsProper d
  inputs : ∀ l, e.2 = .many l → ∀ k ∈ e.1, TakesInputs lib k l.length

/-- What an entry says: the same options for each of its primitives. -/
def entrySays (e : List RawKey × RawOptions) : List (PKey × List POption) :=
  e.1.map fun k => (keyFor k, (optionsGiven e.2).map fun r => match r with | .dict d => meant d | .other => {})

/-- Option dicts have every key once. -/
def DictKeys (raw : List (List RawKey × RawOptions)) : Prop :=
  ∀ e ∈ raw, ∀ d, RawOption.dict d ∈ optionsGiven e.2 → (d.map Prod.fst).Nodup

/-- Entities to ignore: none, or a list without the target. -/
inductive IgnoreGiven (target : String) : RawIgnore → List String → Prop
  | none : IgnoreGiven target .none []
  | list {l} : target ∉ l → IgnoreGiven target (.list l) l

/-- Variables to ignore: none, or a dict from texts to lists of texts. -/
inductive IgnoreVarsGiven : Option RawIgnoreVars → VarDict → Prop
  | none : IgnoreVarsGiven none []
  | some (d : VarDict) : IgnoreVarsGiven (some (d.map fun p => (some p.1, some (p.2.map some)))) d

end FT.Spec
