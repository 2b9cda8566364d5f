import Verif.Model.Synth
import Verif.Model.Options
/-! Specification of what synthesised features depend on and how schemas are shaped, independent of the search. -/
namespace FT.Spec
open FT

/-- A walk of `n` relationships, in either direction, from `a` to `b`. -/
inductive Walk (rels : List Relationship) (a : String) : String → Nat → Prop
  | here : Walk rels a a 0
  | up {b : String} {n : Nat} (r : Relationship) : Walk rels a b n → r ∈ rels → r.childE = b → Walk rels a r.parentE (n + 1)
  | down {b : String} {n : Nat} (r : Relationship) : Walk rels a b n → r ∈ rels → r.parentE = b → Walk rels a r.childE (n + 1)

/-- `g` is used by `f`: it is `f`, or used by something `f` directly depends on. Seed features are not looked into. -/
inductive DepUses (seeds : List DFeat) : DFeat → DFeat → Prop
  | self {f : DFeat} : f ∉ seeds → DepUses seeds f f
  | dep {f d g : DFeat} : f ∉ seeds → d ∈ f.bases ++ f.wh → DepUses seeds d g → DepUses seeds f g

/-- `g` is an input of `f`, at some depth, or `f` itself. Conditions and what seed features are made of do not count. -/
inductive InputUses (seeds : List DFeat) : DFeat → DFeat → Prop
  | self {f : DFeat} : f ∉ seeds → InputUses seeds f f
  | dep {f d g : DFeat} : f ∉ seeds → d ∈ f.bases → InputUses seeds d g → InputUses seeds f g

/-- A chain of `n` dependencies starts at `f`; it does not go beyond columns and the features named in `stop`. -/
inductive DepChain (stop : List String) : DFeat → Nat → Prop
  | nil (f : DFeat) : DepChain stop f 0
  | cons {f d : DFeat} {n : Nat} : (∀ v t, f.kind ≠ .identity v t) → f.uname ∉ stop → d ∈ f.bases ++ f.wh → DepChain stop d n →
      DepChain stop f (n + 1)

/-- `f` is an aggregation with a condition. -/
def IsWhere (f : DFeat) : Prop := (∃ path p, f.kind = .agg path p) ∧ f.wh ≠ []

/-- A dependency chain starting at `f` meets `n` aggregations with conditions. -/
inductive WhereChain : DFeat → Nat → Prop
  | nil (f : DFeat) : WhereChain f 0
  | skip {f d : DFeat} {n : Nat} : d ∈ f.bases ++ f.wh → WhereChain d n → WhereChain f n
  | hit {f d : DFeat} {n : Nat} : IsWhere f → d ∈ f.bases ++ f.wh → WhereChain d n → WhereChain f (n + 1)

/-- The shape of features: a column has no inputs, a direct feature or an output slice one, other features some; only an
aggregation has a condition. -/
inductive Proper : DFeat → Prop
  | identity (v t e n : String) : Proper (.mk (.identity v t) e n [] [])
  | direct (r : Relationship) (e n : String) {b : DFeat} : Proper b → Proper (.mk (.direct r) e n [b] [])
  | slice (i : Nat) (e n : String) {b : DFeat} : Proper b → Proper (.mk (.slice i) e n [b] [])
  | trans (p : Prim) (e n : String) {bs : List DFeat} : bs ≠ [] → (∀ b ∈ bs, Proper b) → Proper (.mk (.trans p) e n bs [])
  | groupby (p : Prim) (e n : String) {bs : List DFeat} : bs ≠ [] → (∀ b ∈ bs, Proper b) → Proper (.mk (.groupby p) e n bs [])
  | agg (path : RelPath) (p : Prim) (e n : String) {bs ws : List DFeat} : bs ≠ [] → (∀ b ∈ bs, Proper b) → ws.length ≤ 1 →
      (∀ w ∈ ws, Proper w) → Proper (.mk (.agg path p) e n bs ws)

/-- The primitive `p` makes `f`, or the feature `f` is an output of. -/
inductive MadeBy (p : Prim) : DFeat → Prop
  | agg (path : RelPath) (e n : String) (bs ws : List DFeat) : MadeBy p (.mk (.agg path p) e n bs ws)
  | trans (e n : String) (bs ws : List DFeat) : MadeBy p (.mk (.trans p) e n bs ws)
  | groupby (e n : String) (bs ws : List DFeat) : MadeBy p (.mk (.groupby p) e n bs ws)
  | slice (i : Nat) (e n : String) {b : DFeat} (ws : List DFeat) : MadeBy p b → MadeBy p (.mk (.slice i) e n [b] ws)

/-- The primitive behind `f`; columns and direct features have one that says nothing about stacking. -/
def Behind (p : Prim) (f : DFeat) : Prop := MadeBy p f ∨ (∀ q, ¬MadeBy q f) ∧ p = Prim.plain

/-- May an aggregation with the primitive `p` take an input made by `q`? -/
structure MayStack (p q : Prim) : Prop where
  self : p.stackOnSelf = some false → p.cls ∉ q.supers
  exclude : ∀ l, p.stackOnExclude = some l → ∀ c ∈ l, c ∉ q.supers
  allow : (p.stackOnSelf = some true ∧ p.cls ∈ q.supers) ∨ p.stackOn = none ∨ (∃ l, p.stackOn = some l ∧ ∃ c ∈ l, c ∈ q.supers) ∨
    q.baseOf = none ∨ ∃ l, q.baseOf = some l ∧ p.cls ∈ l

/-- What an option says about the entity of a feature. -/
def EntityPermitted (incl ign : Option (List String)) (e : String) : Prop :=
  (∀ l, incl = some l → e ∈ l) ∧ ∀ l, ign = some l → e ∉ l

/-- What an option says about a feature an input is made of. For a column of an entity whose variables are listed only the list
counts; otherwise the column must not be ignored and the entity must be permitted. -/
def Permitted (inclVars ignVars : Option VarDict) (inclEnts ignEnts : Option (List String)) (f : DFeat) : Prop :=
  ((∃ v t, f.kind = .identity v t) → ∀ l, inclVars.bind (fun d => d.lookup f.entity) = some l → f.name ∈ l) ∧
  ((∃ v t, f.kind = .identity v t) → inclVars.bind (fun d => d.lookup f.entity) = none →
    (∀ l, ignVars.bind (fun d => d.lookup f.entity) = some l → f.name ∉ l) ∧ EntityPermitted inclEnts ignEnts f.entity) ∧
  ((∀ v t, f.kind ≠ .identity v t) → EntityPermitted inclEnts ignEnts f.entity)

/-- The option permits an input: itself and all it depends on. -/
def InputPermitted (o : POption) (f : DFeat) : Prop :=
  ∀ g, DepUses [] f g → Permitted o.includeVars (some o.ignoreVars) o.includeEntities (some o.ignoreEntities) g

/-- The option permits grouping by a feature. -/
def GroupPermitted (o : POption) (f : DFeat) : Prop :=
  ∀ g, DepUses [] f g → Permitted o.includeGbVars o.ignoreGbVars o.includeGbEntities o.ignoreGbEntities g

/-- The options permit a list of inputs: one option is for all of them, several are for one input each. -/
def MatchPermitted (P : POption → DFeat → Prop) (os : List POption) (t : List DFeat) : Prop :=
  os ≠ [] ∧ (∀ o, os = [o] → ∀ b ∈ t, P o b) ∧ (2 ≤ os.length → ∀ (i : Nat) o b, os[i]? = some o → t[i]? = some b → P o b)

/-- The options the user gave for a primitive: those for the instance, or else those for its name. -/
def UserOptions (user : List (PKey × List POption)) (p : Prim) (os : List POption) : Prop :=
  user.lookup (.inst p) = some os ∨ user.lookup (.inst p) = none ∧ user.lookup (.named p.name) = some os

/-- The user gave the primitive no options. -/
def NoOptions (user : List (PKey × List POption)) (p : Prim) : Prop :=
  user.lookup (.inst p) = none ∧ user.lookup (.named p.name) = none

/-- One of the options includes the entity, or lists variables of it. -/
def IncludesEntity (os : List POption) (e : String) : Prop :=
  ∃ o ∈ os, (∃ l, o.includeEntities = some l ∧ e ∈ l) ∨ ∃ d, o.includeVars = some d ∧ ∃ vs, (e, vs) ∈ d

/-- One of the options lists the variable. -/
def IncludesVar (os : List POption) (e v : String) : Prop :=
  ∃ o ∈ os, ∃ d, o.includeVars = some d ∧ ∃ vs, (e, vs) ∈ d ∧ v ∈ vs

end FT.Spec
