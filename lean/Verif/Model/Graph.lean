import Verif.Model.Feature
/-!
# The lineage graph of a feature

Models `feature_base/feature_visualizer.py`. Drawing is left out: a graph is its tables, boxes and lines. A node is what its text is
made of; two nodes are one in the drawing exactly if the parts are equal (the code joins them with `_` and `:`, which the model takes
not to create further coincidences). Sets are lists without repetition; their order is that of insertion here and arbitrary in the
code. `primName` is `primitive.name` of aggregation and transform features, empty for none.
-/
namespace FT

/-- Nodes: a row of the table of an entity (`"{}:{}"`, line 114), the diamond of a primitive (`"{}_{}_{}"`, line 137) or a "group by"
box (`"{}_groupby_{}"`, lines 158 and 182). -/
inductive GNode where
  | row (entity name : String)
  | prim (layer : Nat) (feature prim : String)
  | group (feature entity column : String)
deriving DecidableEq

/-- An entry of `primitives` (line 138). -/
structure GDiamond where
  node : GNode
  label : String
  layer : Nat
  type : String
deriving DecidableEq

/-- `entities` with their `vars` and `feats`, `edges[1]`, `edges[0]`, `primitives` and `groupbys` (lines 54-57). -/
structure Graph where
  entities : List String
  vars : List (String × String)
  feats : List (String × String)
  solid : List (GNode × GNode)
  dotted : List (GNode × GNode)
  prims : List GDiamond
  groups : List (GNode × String)
deriving DecidableEq

/-- Adding to a set, and to a dictionary a key that it may have. -/
def graphAdd {α : Type} [BEq α] (l : List α) (x : α) : List α := if l.contains x then l else l ++ [x]

/-- Lines 125-127: for an output slice the rest is about its base feature. -/
def graphCore (f : Feat) : Feat :=
  match f.kind, f.bases with
  | .slice _, b :: _ => b
  | _, _ => f

/-- Lines 130-131: the name of the primitive, `join` for direct features; identity features have none. -/
def graphPrim (primName : Feat → String) (f : Feat) : Option String :=
  match f.kind with
  | .identity _ => none
  | .direct _ => some "join"
  | _ => if primName f = "" then none else some (primName f)

/-- Lines 132-136. -/
def graphType (f : Feat) : String :=
  match f.kind with
  | .agg _ _ _ _ => "Aggregation"
  | .trans _ => "Transform"
  | .groupby _ => "Transform"
  | _ => ""

/-- Lines 130-141: the diamond and the node that the rest leads to. -/
def graphAddPrim (primName : Feat → String) (layer : Nat) (f : Feat) (base : GNode) (s : Graph) : GNode × Graph :=
  match graphPrim primName f with
  | none => (base, s)
  | some p =>
    let node := GNode.prim layer f.name p
    (node, { s with prims := s.prims ++ [⟨node, p.toUpper, layer, graphType f⟩], solid := s.solid ++ [(node, base)] })

/-- Lines 145-164, one step of the relationship path: dotted lines to the link columns, and a "group by" box when going to children. -/
def graphLink (fname : String) (x : GNode × Graph) (step : Bool × Relationship) : GNode × Graph :=
  let r := step.2
  let s := { x.2 with entities := graphAdd x.2.entities r.childE, vars := graphAdd x.2.vars (r.childE, r.childV) }
  let child := GNode.row r.childE r.childV
  if step.1 then (x.1, { s with dotted := s.dotted ++ [(x.1, child)] })
  else
    let box := GNode.group fname r.childE r.childV
    (box, { s with groups := s.groups ++ [(box, r.childV)], dotted := s.dotted ++ [(child, box)], solid := s.solid ++ [(box, x.1)] })

/-- `feat.groupby`: the last base feature of a group-by feature. -/
def graphGroupby (f : Feat) : Option Feat :=
  match f.kind with
  | .groupby _ => f.bases.getLast?
  | _ => none

/-- Lines 144 and 169: the dependencies, without the first one that has the hash of the group-by feature (`feature_base.py` 170-171,
the hash of the name followed by the entity, taken to tell texts apart). -/
def graphInputs (f : Feat) : List Feat :=
  match graphGroupby f with
  | none => f.deps
  | some g => f.deps.eraseP fun d => d.name ++ d.entity = g.name ++ g.entity

/-- Lines 171-188: the box of the group-by feature. -/
def graphAddGroup (fname : String) (g : Feat) (base : GNode) (s : Graph) : GNode × Graph :=
  let key := (g.entity, g.name)
  let s := if g.isIdentity then { s with vars := graphAdd s.vars key } else { s with feats := graphAdd s.feats key }
  let box := GNode.group fname g.entity g.name
  (box, { s with groups := s.groups ++ [(box, g.name)], dotted := s.dotted ++ [(GNode.row g.entity g.name, box)],
                 solid := s.solid ++ [(box, base)] })

/-- Lines 166-188: the group-by feature is visited, and the depth this returns is dropped. -/
def graphGroupStage (visit : Feat → Graph → Nat × Graph) (f : Feat) (x : GNode × Graph) : GNode × Graph :=
  match graphGroupby f with
  | none => x
  | some g => graphAddGroup f.name g x.1 (visit g x.2).2

/-- Lines 191-196, the loop over what is left of the dependencies. -/
def graphLoop (visit : Feat → Graph → Nat × Graph) (base : GNode) : List Feat → Nat × Graph → Nat × Graph
  | [], x => x
  | d :: ds, x =>
    let y := visit d x.2
    graphLoop visit base ds (max y.1 x.1, { y.2 with solid := y.2.solid ++ [(GNode.row d.entity d.name, base)] })

/-- Lines 107-198, `get_feature_data`, with a bound on the depth of the recursion; it returns the depth. -/
def graphVisit (primName : Feat → String) : Nat → Nat → Feat → Graph → Nat × Graph
  | 0, layer, _, s => (layer, s)
  | n + 1, layer, f, s0 =>
    let key := (f.entity, f.name)
    let s := { s0 with entities := graphAdd s0.entities f.entity }
    if s.vars.contains key || s.feats.contains key then (layer, s)
    else
      let s := if f.isIdentity then { s with vars := graphAdd s.vars key } else { s with feats := graphAdd s.feats key }
      let c := graphCore f
      let x := graphAddPrim primName layer c (.row f.entity f.name) s
      let x := c.kind.path.foldl (graphLink c.name) x
      let x := graphGroupStage (graphVisit primName n (layer + 1)) c x
      graphLoop (graphVisit primName n (layer + 1)) x.1 (graphInputs c) (layer, x.2)

/-- Lines 59-60 of `graph_feature`: the depth and what is drawn. The recursion is over parts of the feature, so the bound is not
reached. -/
def featureGraph (primName : Feat → String) (f : Feat) : Nat × Graph :=
  graphVisit primName f.size 0 f ⟨[], [], [], [], [], [], []⟩

/-- Lines 70-71: the step written on a diamond. -/
def graphStep (x : Nat × Graph) (d : GDiamond) : Int := (x.1 : Int) - (d.layer : Int)

/-- A row of the table of an entity: its text, whether it says `(index)` and whether it has the colour of the target. -/
structure GRow where
  text : String
  isIndex : Bool
  isTarget : Bool
deriving DecidableEq

/-- Lines 62-66 and 209-240, `get_entity_table`: the rows for an entity; `target` is the feature that the graph is of. -/
def graphTable (index : String) (target : String × String) (s : Graph) (e : String) : List GRow :=
  let targets := if target.1 = e then [target.2] else []
  let variables := ((s.vars.filter fun k => k.1 = e).map Prod.snd).filter fun v => !targets.contains v
  let feats := ((s.feats.filter fun k => k.1 = e).map Prod.snd).filter fun v => !targets.contains v
  if variables.contains index then
    ⟨index, true, false⟩ :: ((variables.filter (· ≠ index)) ++ feats ++ targets).map fun v => ⟨v, false, targets.contains v⟩
  else if targets.contains index then
    ⟨index, true, true⟩ :: (variables ++ feats ++ targets.filter (· ≠ index)).map fun v => ⟨v, false, (targets.filter (· ≠ index)).contains v⟩
  else (variables ++ feats ++ targets).map fun v => ⟨v, false, targets.contains v⟩

end FT
