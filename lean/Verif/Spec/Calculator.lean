import Verif.Spec.FeatureSet
import Verif.Model.Calculator
/-!
# The meaning of features

What the value of a feature *is*, for one instance at one cutoff time, written without frames, merges or grouping: a
recursive definition over the feature, given the ids and the cells that are visible at the cutoff.
-/
namespace FT.Spec

/-- The data visible at a cutoff: the ids of the instances of each entity (in the order of the data), their cells, the
time index of each entity, the cutoff time and the arithmetic of time spans. -/
structure World where
  ids : String → List Val
  cell : String → Val → String → Val
  timeIndex : String → Option String
  time : Int
  minus : Int → Dict Int → Int

/-- The rows an unrestricted query shows. -/
def visRows (env : Env) (e : String) : List Row :=
  match env.ent e with
  | none => []
  | some ent =>
    match queryByValues ent none none none (some env.timeLast) env.window env.includeCutoff with
    | .ok t => t.rows
    | .error _ => []

/-- The index column of an entity. -/
def indexOf (env : Env) (e : String) : String := ((env.ent e).map Ent.index).getD ""

/-- The world an environment shows. -/
def worldOf (env : Env) : World where
  ids e := (visRows env e).map fun r => r (indexOf env e)
  cell e id c := (((visRows env e).find? fun r => r (indexOf env e) = id).map fun r => r c).getD .null
  timeIndex e := (env.ent e).bind Ent.timeIndex
  time := env.timeLast
  minus := env.minus

/-- Follow child-to-parent relationships (the nearest first) from an instance. -/
def World.up (w : World) : List Relationship → Val → Val
  | [], id => id
  | r :: rs, id => w.up rs (w.cell r.childE id r.childV)

/-- A missing value is replaced by the default. -/
def orElse (d v : Val) : Val := if v = .null then d else v

/-- The values in a column for one id. -/
def pick (ids col : List Val) (id : Val) : Val := ((ids.zip col).lookup id).getD .null

/-- The last `n` of a list (`n` positive); for `n ≤ 0` Python's slice drops the first `-n`. -/
def lastObs (n : Int) (l : List Val) : List Val := if 0 < n then l.drop (l.length - n.toNat) else l.drop (-n).toNat

/-- The value of the single output of a feature. -/
def one (f : Val → List Val) (id : Val) : Val := (f id).headD .null

/-- The instances an aggregation sees for `id`: those below it along the path for which the condition holds, inside the
time span or the last observations asked for. -/
def aggMembers (w : World) (path : List Relationship) (prev : Option (Dict Int)) (wh : List (Val → List Val)) (child : String)
    (id : Val) : List Val :=
  let below := (w.ids child).filter fun x => w.up path.reverse x = id ∧ ∀ c ∈ wh, one c x = .bool true
  match prev with
  | none => below
  | some times =>
    match obsCount times, w.timeIndex child with
    | some n, _ => lastObs n below
    | none, some ti => below.filter fun x => (w.cell child x ti).ge (w.minus w.time times)
    | none, none => below

/-- The values of a transform primitive for one id, computed from the values of its arguments for a list of ids. -/
def transOn (w : World) (p : TransPrim) (ids : List Val) (args : List (Val → List Val)) (id : Val) : List Val :=
  (p.fn w.time (args.map fun b => ids.map (one b))).map fun col => pick ids col id

/-- The values of a feature, given the meaning of its base features and of its condition. -/
def meaningStep (w : World) (i : Info) (bs wh : List (Val → List Val)) (id : Val) : List Val :=
  match i.kind with
  | .identity v => [w.cell i.entity id v]
  | .slice n => match bs with
    | b :: _ => [(b id).getD n .null]
    | [] => []
  | .direct r =>
    let pid := w.cell i.entity id r.childV
    match bs with
    | b :: _ => if pid ∈ w.ids r.parentE then (b pid).map (orElse i.dflt) else i.names.map fun _ => i.dflt
    | [] => []
  | .agg path p prev _ =>
    let ms := aggMembers w path prev wh ((path.getLast?.map Relationship.childE).getD "") id
    if ms = [] then i.names.map fun _ => i.dflt
    else (p.fn w.time (bs.map fun b => ms.map (one b))).map (orElse i.dflt)
  | .trans p => transOn w p (w.ids i.entity) bs id
  | .groupby p =>
    match bs.getLast? with
    | none => []
    | some g =>
      if one g id = .null then i.names.map fun _ => i.dflt
      else (transOn w p ((w.ids i.entity).filter fun x => one g x = one g id) bs.dropLast id).map (orElse i.dflt)

mutual
/-- The values of a feature for an instance, one per output. -/
def meaning (w : World) : Feat → Val → List Val
  | .mk i bs wh => meaningStep w i (meanings w bs) (meanings w wh)
/-- The meanings of a list of features. -/
def meanings (w : World) : List Feat → List (Val → List Val)
  | [] => []
  | f :: fs => meaning w f :: meanings w fs
end

/-- The row the result has for an instance: its values when it is visible, else the defaults. -/
def answer (w : World) (e : String) (targets : List Feat) (id : Val) : List Val :=
  if id ∈ w.ids e then targets.flatMap fun f => meaning w f id else targets.flatMap fun f => f.names.map fun _ => f.dflt

end FT.Spec

/-! ## When a computation is regular -/
namespace FT.Spec

/-- A transform primitive that works row by row. -/
def Elementwise (p : TransPrim) (outputs : Nat) : Prop :=
  ∃ g : Int → List Val → List Val, ∀ t args n, args ≠ [] → (∀ a ∈ args, a.length = n) →
    p.fn t args = (List.range outputs).map fun k => (List.range n).map fun i => (g t (args.map fun a => a.getD i .null)).getD k .null

/-- A transform primitive that gives the announced number of columns, as long as its arguments. -/
def TransShape (p : TransPrim) (outputs : Nat) : Prop :=
  ∀ t args n, args ≠ [] → (∀ a ∈ args, a.length = n) → (p.fn t args).length = outputs ∧ ∀ c ∈ p.fn t args, c.length = n

/-- Relationships followed from a parent entity down to a child entity. -/
inductive PathDown : String → List Relationship → String → Prop
  | last (r : Relationship) : PathDown r.parentE [r] r.childE
  | step (r : Relationship) {rs e} : PathDown r.childE rs e → PathDown r.parentE (r :: rs) e

/-- The entity is there, its key columns exist, its ids are distinct and present and never blanked. -/
structure EntityOk (env : Env) (e : String) : Prop where
  there : (env.ent e).isSome
  indexKey : indexOf env e ∈ env.keyCols e
  timeKey : ∀ ent ti, env.ent e = some ent → ent.timeIndex = some ti → ti ∈ env.keyCols e
  keys : ∀ ent, env.ent e = some ent → ∀ c ∈ env.keyCols e, c ∈ ent.df.cols
  distinct : ∀ ent, env.ent e = some ent → (ent.df.rows.map fun r => r ent.index).Nodup
  present : ∀ ent, env.ent e = some ent → ∀ r ∈ ent.df.rows, r ent.index ≠ .null
  notSecondary : ∀ ent, env.ent e = some ent → ∀ sec ∈ ent.secondary, ent.index ∉ sec.2

/-- The relationship links two such entities, by the parent's index and a key column of the child, and is part of the
entity set. -/
structure RelOk (env : Env) (r : Relationship) : Prop where
  parent : EntityOk env r.parentE
  child : EntityOk env r.childE
  parentIndex : r.parentV = indexOf env r.parentE
  childKey : r.childV ∈ env.keyCols r.childE
  known : (r.parentName? env.rels).isSome

/-- One output, carrying the feature's name. -/
def SingleOutput (f : Feat) : Prop := f.names = [f.name]

/-- The conditions on one feature. Most are checked by the feature constructors; see `DESIGN.md` for those that are not. -/
def WellFormed (env : Env) (f : Feat) : Prop :=
  f.names ≠ [] ∧ f.names.Nodup ∧ EntityOk env f.entity ∧
  match f.kind with
  | .identity v => f.name = v ∧ SingleOutput f ∧ f.bases = [] ∧ f.wh = [] ∧
      ∀ ent, env.ent f.entity = some ent → v ∈ ent.df.cols
  | .slice n => SingleOutput f ∧ f.wh = [] ∧ ∃ b, f.bases = [b] ∧ b.entity = f.entity ∧ b.names[n]? = some f.name ∧ ∀ m, b.kind ≠ .slice m
  | .direct r => RelOk env r ∧ r.childE = f.entity ∧ f.wh = [] ∧
      ∃ b, f.bases = [b] ∧ b.entity = r.parentE ∧ b.names.length = f.names.length
  | .agg path p prev _ => (∀ r ∈ path, RelOk env r) ∧ (∀ r ∈ path.tail, r.parentName? env.rels = some r.parentE) ∧
      f.bases ≠ [] ∧ f.wh.length ≤ 1 ∧
      (∃ e, PathDown f.entity path e ∧ ∀ d, d ∈ f.bases ∨ d ∈ f.wh → d.entity = e ∧ SingleOutput d) ∧
      (∀ times, prev = some times → ∃ u v, times = [(u, v)] ∧ u ≠ "") ∧
      (f.bases.length = 1 ∨ ∀ w ∈ f.wh, ∀ b ∈ f.bases, b.name ≠ w.name) ∧
      (∀ t args, (p.fn t args).length = f.names.length)
  | .trans p => f.bases ≠ [] ∧ f.wh = [] ∧ (∀ d ∈ f.bases, d.entity = f.entity ∧ SingleOutput d ∧ (∀ n, d.kind = .slice n → d.path = [])) ∧
      TransShape p f.names.length ∧ (p.usesFull = false → Elementwise p f.names.length)
  | .groupby p => f.bases.dropLast ≠ [] ∧ f.wh = [] ∧
      (∀ d ∈ f.bases, d.entity = f.entity ∧ SingleOutput d ∧ (∀ n, d.kind = .slice n → d.path = [])) ∧
      TransShape p f.names.length ∧ (p.usesFull = false → Elementwise p f.names.length)

/-- A link column: its name, the relationships it stands for (nearest first), and whether it is right on every row of the
entity (rather than only on the rows asked for). -/
abbrev Link := String × List Relationship × Bool

/-- The link columns after following an edge. -/
def linkStep (rels : List Relationship) (need : Bool) (ls : List Link) : Edge → List Link
  | (true, _) => []
  | (false, r) => ls.map (fun l => ((r.parentName? rels).getD "" ++ "." ++ l.1, r :: l.2.1, l.2.2 && need)) ++ [(r.childV, [r], true)]

/-- The link columns at the end of a path. -/
def linksFrom (rels : List Relationship) (plan : List Edge → NodeVal) : List Edge → List Link → List Edge → List Link
  | _, ls, [] => ls
  | p, ls, e :: q => linksFrom rels plan (p ++ [e]) (linkStep rels (plan p).need ls e) q

/-- The entity a path of edges leads to. -/
def pathEnd (e : String) (p : List Edge) : String :=
  match p.getLast? with
  | none => e
  | some (true, r) => r.parentE
  | some (false, r) => r.childE

/-- Without approximation nothing is hidden. -/
def noHidden : List Edge → List String := fun _ => []

/-- The conditions on the whole computation. -/
structure Regular (env : Env) (targets : List Feat) (e : String) : Prop where
  targetEntity : ∀ f ∈ targets, f.entity = e
  noSlice : ∀ f ∈ targets, ∀ n, f.kind ≠ .slice n
  entityOk : EntityOk env e
  window : env.window.all Window.hasNoObservations = true
  names : NamesIdentify targets
  wf : ∀ g, NeededBy targets g → WellFormed env g
  /-- computed columns do not have the names of key columns -/
  notKey : ∀ p f full, Planned targets noHidden p f full → f.isIdentity = false → ∀ n ∈ f.names, n ∉ env.keyCols f.entity
  /-- two features computed for one entity have different columns -/
  disjoint : ∀ p f g full full', Planned targets noHidden p f full → Planned targets noHidden p g full' → f ≠ g →
    ∀ n ∈ f.names, n ∉ g.names
  /-- a link column is not a key column -/
  linkNotKey : ∀ p q f full, Planned targets noHidden (p ++ q) f full →
    ∀ l ∈ linksFrom env.rels (planAt (buildTrie targets (Trie.new []))) [] [] p, 1 < l.2.1.length →
      l.1 ∉ env.keyCols (pathEnd e p)
  /-- a link column has the name of a feature only if it has the same meaning, and is right on the rows computed -/
  linkClash : ∀ p f full, Planned targets noHidden p f full →
    ∀ l ∈ linksFrom env.rels (planAt (buildTrie targets (Trie.new []))) [] [] p, 1 < l.2.1.length → l.1 ∈ f.names →
      f.names = [l.1] ∧ (∃ r, f.kind = .direct r) ∧ f.dflt = .null ∧ (∀ id, meaning (worldOf env) f id = [(worldOf env).up l.2.1 id]) ∧
      (l.2.2 = true ∨ (planAt (buildTrie targets (Trie.new [])) p).need = false)
  /-- features with the same path name have the same path -/
  paths : ∀ p f g full full', Planned targets noHidden p f full → Planned targets noHidden p g full' →
    className f = className g → f.pathName env.rels = g.pathName env.rels → f.path = g.path
  /-- two direct features over one relationship have different base columns -/
  directBases : ∀ p f g full full', Planned targets noHidden p f full → Planned targets noHidden p g full' →
    (∃ r, f.kind = .direct r ∧ g.kind = .direct r) → f ≠ g → ∀ a ∈ f.bases, ∀ b ∈ g.bases, ∀ n ∈ a.names, n ∉ b.names

end FT.Spec
