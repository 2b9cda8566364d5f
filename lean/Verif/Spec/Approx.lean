import Verif.Spec.Calculator
/-!
# The meaning of features when some are given

With `approximate`, some features are not computed where they are needed: their values are looked up.  What the others mean
then depends on where, along which relationships, they are needed.
-/
namespace FT.Spec

/-- Which features are given, by the path at which they are needed, and their values for an instance. -/
structure Given where
  trie : ATrie
  value : Feat → Val → List Val

/-- Nothing is given. -/
def Given.none : Given := ⟨Trie.new [], fun _ _ => []⟩

/-- The names of the features given at a path. -/
abbrev Given.names (G : Given) : List Edge → List String := hiddenBy G.trie

mutual
/-- The values of a feature that is needed at path `p`: looked up if it is given there, else by its definition; its base
features and its condition are needed at the end of its own path. An output slice belongs to its base feature. -/
def meaningAt (w : World) (G : Given) (p : List Edge) : Feat → Val → List Val
  | .mk i bs wh =>
    match i.kind with
    | .slice _ => meaningStep w i (meaningsAt w G p bs) (meaningsAt w G p wh)
    | k =>
      if (Feat.mk i bs wh).uniqueName ∈ G.names p then G.value (.mk i bs wh)
      else meaningStep w i (meaningsAt w G (p ++ k.path) bs) (meaningsAt w G (p ++ k.path) wh)
/-- The meanings of a list of features. -/
def meaningsAt (w : World) (G : Given) (p : List Edge) : List Feat → List (Val → List Val)
  | [] => []
  | f :: fs => meaningAt w G p f :: meaningsAt w G p fs
end

/-- The row the result has for an instance. -/
def answerAt (w : World) (G : Given) (e : String) (targets : List Feat) (id : Val) : List Val :=
  if id ∈ w.ids e then targets.flatMap fun f => meaningAt w G [] f id else targets.flatMap fun f => f.names.map fun _ => f.dflt

/-- `f` is needed at path `p` and given there. -/
inductive GivenAt (targets : List Feat) (hidden : List Edge → List String) : List Edge → Feat → Prop
  | dep {p f full d b} : Planned targets hidden p f full → d ∈ f.bases ∨ d ∈ f.wh → unslice d = some b →
      b.uniqueName ∈ hidden (p ++ f.path) → GivenAt targets hidden (p ++ f.path) b

/-- `f` is computed or given at path `p`. -/
def AtNode (targets : List Feat) (hidden : List Edge → List String) (p : List Edge) (f : Feat) : Prop :=
  (∃ full, Planned targets hidden p f full) ∨ GivenAt targets hidden p f

/-- The link columns at a path. -/
abbrev linksOf (env : Env) (targets : List Feat) (G : Given) (p : List Edge) : List Link :=
  linksFrom env.rels (planAt (buildTrie targets G.trie)) [] [] p

/-- The conditions on a computation in which some features are given (compare `Regular`). -/
structure RegularFor (env : Env) (targets : List Feat) (G : Given) (e : String) : Prop where
  targetEntity : ∀ f ∈ targets, f.entity = e
  noSlice : ∀ f ∈ targets, ∀ n, f.kind ≠ .slice n
  entityOk : EntityOk env e
  window : env.window.all Window.hasNoObservations = true
  names : NamesIdentify targets
  wf : ∀ g, NeededBy targets g → WellFormed env g
  /-- the columns of computed and of given features do not have the names of key columns -/
  notKey : ∀ p f, AtNode targets G.names p f → f.isIdentity = false → ∀ n ∈ f.names, n ∉ env.keyCols f.entity
  /-- two features of one entity have different columns -/
  disjoint : ∀ p f g, AtNode targets G.names p f → AtNode targets G.names p g → f ≠ g → ∀ n ∈ f.names, n ∉ g.names
  /-- a link column is not a key column -/
  linkNotKey : ∀ p q f, AtNode targets G.names (p ++ q) f → ∀ l ∈ linksOf env targets G p, 1 < l.2.1.length →
      l.1 ∉ env.keyCols (pathEnd e p)
  /-- a link column has the name of a feature only if it has the same meaning, and is right on the rows computed -/
  linkClash : ∀ p f full, Planned targets G.names p f full → ∀ l ∈ linksOf env targets G p, 1 < l.2.1.length → l.1 ∈ f.names →
      f.names = [l.1] ∧ (∃ r, f.kind = .direct r) ∧ f.dflt = .null ∧
      (∀ id, meaningAt (worldOf env) G p f id = [(worldOf env).up l.2.1 id]) ∧
      (l.2.2 = true ∨ (planAt (buildTrie targets G.trie) p).need = false)
  /-- features with the same path name have the same path -/
  paths : ∀ p f g full full', Planned targets G.names p f full → Planned targets G.names p g full' →
    className f = className g → f.pathName env.rels = g.pathName env.rels → f.path = g.path
  /-- two direct features over one relationship have different base columns -/
  directBases : ∀ p f g full full', Planned targets G.names p f full → Planned targets G.names p g full' →
    (∃ r, f.kind = .direct r ∧ g.kind = .direct r) → f ≠ g → ∀ a ∈ f.bases, ∀ b ∈ g.bases, ∀ n ∈ a.names, n ∉ b.names
  /-- features are given along child-to-parent relationships, and only where nothing is computed on the full entity -/
  givenUp : ∀ p f, GivenAt targets G.names p f → (∀ x ∈ p, x.1 = true) ∧ (planAt (buildTrie targets G.trie) p).need = false
  /-- given features are computed ones otherwise -/
  givenKind : ∀ p f, GivenAt targets G.names p f → f.isIdentity = false
  /-- no target is given -/
  targetsComputed : G.names [] = []

/-- The instances reached from `ids` by following child-to-parent relationships in the visible data. -/
inductive ReachedUp (w : World) (ids : List Val) : List Edge → Val → Prop
  | start {x} : x ∈ ids → ReachedUp w ids [] x
  | up {p x r} : ReachedUp w ids p x → ReachedUp w ids (p ++ [(true, r)]) (w.cell r.childE x r.childV)

end FT.Spec
