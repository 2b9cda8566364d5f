import Verif.Model.Schema
import Verif.Model.Options
/-!
# Deep Feature Synthesis

Models `DeepFeatureSynthesis` (`synthesis/deep_feature_synthesis.py`): which features are built, in which order.
-/
namespace FT

/-- A variable: id, name, class name and interesting values. -/
structure DVar where
  id : String
  name : String
  type : String
  interesting : List Val

/-- An entity: id, index and variables, in order. -/
structure DEnt where
  id : String
  index : String
  vars : List DVar

/-- A configured `DeepFeatureSynthesis` object (`deep_feature_synthesis.py` 127-266): the primitive lists are sorted, `opts` are
the primitive options, `ignoreEnts` and `ignoreVars` what is ignored globally after `generate_all_primitive_options`,
`equalScalar v` is `EqualScalar(v)`. -/
structure Synth where
  L : Lang
  ents : List DEnt
  rels : List Relationship
  aggs : List Prim
  trans : List Prim
  wheres : List Prim
  groupbys : List Prim
  opts : Prim → List POption
  ignoreEnts : List String
  ignoreVars : String → List String
  allowedPaths : List (List String)
  seeds : List DFeat
  whereLimit : Int
  equalScalar : Val → Prim

/-- How the synthesis fails: with an exception of the code, or by never returning. -/
inductive DfsErr where
  | py (e : PyErr)
  | diverges
deriving DecidableEq

/-- `all_features` and `where_clauses`: for every entity visited its features, in the order of the dict; the where clauses of
an entity. -/
structure DState where
  feats : List (String × List DFeat)
  clauses : List (String × List DFeat)

/-- A loop whose rounds may fail. -/
def foldE {σ α ε : Type} (f : σ → α → Except ε σ) : σ → List α → Except ε σ
  | s, [] => .ok s
  | s, a :: as => match f s a with
    | .ok s' => foldE f s' as
    | .error e => .error e

/-- A loop that appends what its rounds give. -/
def gatherE {α β ε : Type} (f : α → Except ε (List β)) : List α → Except ε (List β)
  | [] => .ok []
  | a :: as => match f a with
    | .error e => .error e
    | .ok x => match gatherE f as with
      | .error e => .error e
      | .ok y => .ok (x ++ y)

/-- Updating the value of an entity in a dict. -/
def setFor (d : List (String × List DFeat)) (e : String) (fs : List DFeat) : List (String × List DFeat) :=
  d.map fun p => if p.1 = e then (e, fs) else p

/-- Setting `d[f.unique_name()] = f` in an ordered dict. -/
def putFeature (fs : List DFeat) (f : DFeat) : List DFeat :=
  if fs.any fun g => g.uname == f.uname then fs.map fun g => if g.uname = f.uname then f else g else fs ++ [f]

/-- `_handle_new_feature` (`deep_feature_synthesis.py` 476-504): a feature already present stays, unless it has the name of a
seed feature. -/
def addNew (S : Synth) (st : DState) (f : DFeat) : Except DfsErr DState :=
  match st.feats.lookup f.entity with
  | none => .error (.py .keyError)
  | some fs =>
    if (fs.any fun g => g.uname == f.uname) && !(S.seeds.any fun g => g.uname == f.uname) then .ok st
    else .ok { st with feats := setFor st.feats f.entity (putFeature fs f) }

/-- `IdentityFeature(variable=v)` (`feature_base.py` 345-353, 366-367). -/
def identityOf (e : DEnt) (v : DVar) : DFeat := .mk (.identity v.id v.type) e.id v.name [] []

/-- `_add_identity_features` (`deep_feature_synthesis.py` 506-529). -/
def addIdentity (S : Synth) (e : DEnt) (st : DState) : Except DfsErr DState :=
  foldE (addNew S) st ((e.vars.filter fun v => !(S.ignoreVars e.id).contains v.name).map (identityOf e) ++
    S.seeds.filter fun f => f.entity == e.id)

/-- `max_depth is not None and max_depth < 0`. -/
def exhausted (m : Option Int) : Bool := match m with | some k => decide (k < 0) | none => false

/-- Is the depth within the limit? -/
def withinDepth (m : Option Int) (d : Nat) : Bool := match m with | none => true | some k => decide ((d : Int) ≤ k)

/-- `feature[i]` (`feature_base.py` 60-65, 773-792). -/
def sliceOf (S : Synth) (f : DFeat) (i : Nat) : DFeat := .mk (.slice i) f.entity (S.L.namer.slice f i) [f] []

/-- One round of the loop that replaces a feature of several outputs by its outputs (`deep_feature_synthesis.py` 766-772). -/
def expandOne (S : Synth) (d : List DFeat) (f : DFeat) : List DFeat :=
  if f.outputs > 1 then (List.range f.outputs).foldl (fun d i => putFeature d (sliceOf S f i)) (d.filter fun g => g.uname != f.uname)
  else d

/-- `_features_by_type` (`deep_feature_synthesis.py` 754-782); no types stands for `PandasTypes._all`. -/
def featuresByType (S : Synth) (st : DState) (e : String) (m : Option Int) (types : Option (List String)) : List DFeat :=
  if exhausted m then []
  else match st.feats.lookup e with
    | none => []
    | some fs => (fs.foldl (expandOne S) fs).filter fun f =>
        (match types with | none => true | some ts => ts.any fun t => S.L.sub f.vtype t) &&
          withinDepth m (f.depth (S.seeds.map DFeat.uname))

/-- `_feature_in_relationship_path` (`deep_feature_synthesis.py` 784-798). -/
def inRelPath (p : RelPath) (f : DFeat) : Bool :=
  match f.kind with
  | .identity v _ => p.any fun (_, r) => (r.childE == f.entity && r.childV == v) || (r.parentE == f.entity && r.parentV == v)
  | _ => false

/-- `_all_direct_and_same_path` (`deep_feature_synthesis.py` 949-961). -/
def allDirectSamePath (t : List DFeat) : Bool :=
  (t.all fun f => f.isDirect) && match t with | [] => true | f :: fs => fs.all fun g => g.path == f.path

/-- `_get_matching_inputs` (`deep_feature_synthesis.py` 800-822). -/
def matchingInputs (S : Synth) (st : DState) (e : String) (m : Option Int) (p : Prim) (required : Bool) (keep : DFeat → Bool) :
    List (List DFeat) :=
  let ms := matchInputs S.L p.inputs ((featuresByType S st e m (some p.inputs)).filter keep) false p.commutative required
  filterMatches S.L.sub (S.opts p) false p.commutative (if required then ms.filter fun t => !allDirectSamePath t else ms)

/-- `check_transform_stacking` (`deep_feature_synthesis.py` 825-832). -/
def transStackOk (t : List DFeat) : Bool :=
  t.all fun f => !f.prim.transform && !(f.isDirect && (match f.bases with | b :: _ => b.prim.transform | [] => false))

/-- `isinstance(f.primitive, classes)`. -/
def isA (p : Prim) (classes : List String) : Bool := classes.any fun c => p.supers.contains c

/-- The last loop of `check_stacking` (`deep_feature_synthesis.py` 858-871) for one input. -/
def stackAllowed (p : Prim) (f : DFeat) : Bool :=
  if p.stackOnSelf == some true && isA f.prim [p.cls] then true
  else match p.stackOn with
    | none => true
    | some l => if isA f.prim l then true else
      match f.prim.baseOf with
      | none => true
      | some l => l.contains p.cls

/-- An input is of a primitive of `stack_on_exclude` (`deep_feature_synthesis.py` 843-846). -/
def stackExcluded (p : Prim) (t : List DFeat) : Bool :=
  match p.stackOnExclude with | some l => t.any fun f => isA f.prim l | none => false

/-- `check_stacking` (`deep_feature_synthesis.py` 835-873). An input whose primitive has a `base_of_exclude` list makes it raise
`AttributeError`: it asks the feature for the list (line 855). -/
def stackOk (p : Prim) (t : List DFeat) : Except DfsErr Bool :=
  if p.stackOnSelf == some false && (t.any fun f => isA f.prim [p.cls]) then .ok false
  else if stackExcluded p t then .ok false
  else if t.any (fun f => f.outputs > 1) then .ok false
  else if t.any (fun f => f.prim.baseOfExclude.isSome) then .error (.py .attributeError)
  else .ok (t.all (stackAllowed p))

/-- `_check_input_types` (`feature_base.py` 141-156) for features with inputs. -/
def typesOk (L : Lang) (p : Prim) (bases : List DFeat) : Bool :=
  p.alts.any fun ts => (ts.zip bases).all fun (ty, f) => L.sub f.vtype ty

/-- `TransformFeature(matching_input, primitive)` (`feature_base.py` 641-659). -/
def mkTrans (S : Synth) (e : String) (p : Prim) (t : List DFeat) : Except DfsErr DFeat :=
  if typesOk S.L p t then .ok (.mk (.trans p) e (S.L.namer.trans p (t.map DFeat.name)) t []) else .error (.py .assertionError)

/-- `GroupByTransformFeature(matching_input, groupby, primitive)` (`feature_base.py` 685-698). -/
def mkGroupby (S : Synth) (e : String) (p : Prim) (t : List DFeat) (g : DFeat) : Except DfsErr DFeat :=
  if S.L.sub g.vtype "Discrete" && typesOk S.L p (t ++ [g]) then
    .ok (.mk (.groupby p) e (S.L.namer.groupby p (t.map DFeat.name) g.name) (t ++ [g]) [])
  else .error (.py .assertionError)

/-- `AggregationFeature(matching_input, parent, path, primitive, where)` (`feature_base.py` 489-531). -/
def mkAgg (S : Synth) (e : String) (path : RelPath) (p : Prim) (t : List DFeat) (w : List DFeat) : Except DfsErr DFeat :=
  if typesOk S.L p t then .ok (.mk (.agg path p) e (S.L.namer.agg p path (t.map DFeat.name) (w.head?.map DFeat.name)) t w)
  else .error (.py .assertionError)

/-- `DirectFeature(f, child, relationship)` (`feature_base.py` 390-401, 476-477). -/
def mkDirect (S : Synth) (r : Relationship) (f : DFeat) : DFeat :=
  .mk (.direct r) r.childE (S.L.namer.direct r f.name) [f] []

/-- A loop that appends one feature per round. -/
def eachE {α : Type} (f : α → Except DfsErr DFeat) (l : List α) : Except DfsErr (List DFeat) :=
  gatherE (fun a => match f a with | .ok x => .ok [x] | .error e => .error e) l

/-- The inputs a transform primitive is applied to (`deep_feature_synthesis.py` 594-596, 632-633). -/
def transInputs (S : Synth) (st : DState) (e : String) (m : Option Int) (p : Prim) (required : Bool) : List (List DFeat) :=
  (matchingInputs S st e m p required fun _ => true).filter fun t => (t.all fun f => f.outputs == 1) && transStackOk t

/-- The transform features of one primitive (`deep_feature_synthesis.py` 573-599). -/
def transOf (S : Synth) (st : DState) (e : String) (m : Option Int) (required : Bool) (p : Prim) : Except DfsErr (List DFeat) :=
  if ignoreEntityFor (S.opts p) e false then .ok []
  else eachE (mkTrans S e p) (transInputs S st e m p required)

/-- The features to group by (`deep_feature_synthesis.py` 617-627). -/
def groupbyMatches (S : Synth) (st : DState) (e : String) (m : Option Int) (p : Prim) : List (List DFeat) :=
  filterMatches S.L.sub (S.opts p) true false
    ((featuresByType S st e m (if (S.opts p).any (fun o => (varsFor o.includeGbVars e).isSome) then none else some ["Id"])).map
      fun f => [f])

/-- The group-by features of one primitive (`deep_feature_synthesis.py` 601-645). `groupby` is a tuple of one feature there, so
the tests at 637-641 look at the inputs only: the first never holds, the second asks for a direct feature among the
inputs. -/
def groupbyOf (S : Synth) (st : DState) (e : String) (m : Option Int) (required : Bool) (p : Prim) : Except DfsErr (List DFeat) :=
  if ignoreEntityFor (S.opts p) e true then .ok []
  else gatherE (fun t => if required && !t.any DFeat.isDirect then .ok []
    else gatherE (fun g => match g with
      | [g] => (match mkGroupby S e p t g with | .ok x => .ok [x] | .error err => .error err)
      | _ => .ok []) (groupbyMatches S st e m p)) (transInputs S st e m p false)

/-- `max_depth - 1`, if there is a limit. -/
def lower1 (m : Option Int) : Option Int := m.map fun k => k - 1

/-- `_build_transform_features` (`deep_feature_synthesis.py` 556-649). -/
def buildTransform (S : Synth) (e : String) (m : Option Int) (required : Bool) (st : DState) : Except DfsErr DState :=
  match gatherE (transOf S st e (lower1 m) required) S.trans with
  | .error err => .error err
  | .ok a => match gatherE (groupbyOf S st e (lower1 m) required) S.groupbys with
    | .error err => .error err
    | .ok b => foldE (addNew S) st (a ++ b)

/-- `_build_forward_features` (`deep_feature_synthesis.py` 651-676); the loop at 667-671 has no effect. -/
def buildForward (S : Synth) (r : Relationship) (m : Option Int) (st : DState) : Except DfsErr DState :=
  foldE (addNew S) st (((featuresByType S st r.parentE m none).filter fun f => !inRelPath [(true, r)] f).map (mkDirect S r))

/-- `feature_filter` in `_build_agg_features` (`deep_feature_synthesis.py` 695-698, 964-966). -/
def aggKeep (parent : String) (path : RelPath) (f : DFeat) : Bool :=
  !(match f.kind with | .direct r => r.parentE == parent | _ => false) && !inRelPath path f

/-- The where aggregations among an input and its dependencies (`deep_feature_synthesis.py` 723-730). -/
def whereCount (t : List DFeat) : Nat :=
  (t.flatMap fun f => (f :: f.deepDeps).filter fun g => g.isAgg && !g.wh.isEmpty).length

/-- The where features of one input (`deep_feature_synthesis.py` 719-752). -/
def whereFeatures (S : Synth) (st : DState) (parent child : String) (path : RelPath) (p : Prim) (t : List DFeat) :
    Except DfsErr (List DFeat) :=
  if (whereCount t : Int) ≥ S.whereLimit then .ok []
  else if !(S.wheres.any fun w => p.supers.contains w.cls) then .ok []
  else eachE (fun w => mkAgg S parent path p t [w])
    ((S.L.setOrder ((st.clauses.lookup child).getD [])).filter fun w =>
      !w.bases.any fun b => (t.map DFeat.uname).contains b.uname)

/-- One input of an aggregation primitive (`deep_feature_synthesis.py` 709-752). -/
def aggInput (S : Synth) (parent child : String) (path : RelPath) (p : Prim) (st : DState) (t : List DFeat) : Except DfsErr DState :=
  match stackOk p t with
  | .error err => .error err
  | .ok false => .ok st
  | .ok true => match mkAgg S parent path p t [] with
    | .error err => .error err
    | .ok f => match addNew S st f with
      | .error err => .error err
      | .ok st' => match whereFeatures S st parent child path p t with
        | .error err => .error err
        | .ok fs => foldE (addNew S) st' fs

/-- One aggregation primitive (`deep_feature_synthesis.py` 683-752). -/
def aggPrimStep (S : Synth) (parent child : String) (path : RelPath) (m : Option Int) (st : DState) (p : Prim) : Except DfsErr DState :=
  if ignoreEntityFor (S.opts p) child false then .ok st
  else foldE (aggInput S parent child path p) st
    (filterMatches S.L.sub (S.opts p) false false (matchingInputs S st child m p false (aggKeep parent path)))

/-- `_build_agg_features` (`deep_feature_synthesis.py` 678-752). -/
def buildAgg (S : Synth) (parent child : String) (path : RelPath) (m : Option Int) (st : DState) : Except DfsErr DState :=
  foldE (aggPrimStep S parent child path (lower1 m)) st S.aggs

/-- The variable of a feature, if it has one (`feature_base.py` 347, 439-441): that of an identity feature, or of a direct
feature of one, at any distance. -/
def varOf : DFeat → Option (String × String)
  | .mk (.identity v _) e _ _ _ => some (e, v)
  | .mk (.direct _) _ _ (b :: _) _ => varOf b
  | _ => none

/-- `interesting_values` of a variable (`deep_feature_synthesis.py` 549-550). -/
def interestingOf (S : Synth) (x : String × String) : List Val :=
  match S.ents.find? fun d => d.id == x.1 with
  | none => []
  | some d => match d.vars.find? fun v => v.id == x.2 with
    | none => []
    | some v => v.interesting

/-- `feat == val` (`feature_base.py` 218-226). -/
def clauseOf (S : Synth) (f : DFeat) (v : Val) : DFeat :=
  .mk (.trans (S.equalScalar v)) f.entity (S.L.namer.trans (S.equalScalar v) [f.name]) [f] []

/-- `_build_where_clauses` (`deep_feature_synthesis.py` 531-554): the clauses of an entity. Only an entity's own visit adds to
them. -/
def newClauses (S : Synth) (fs : List DFeat) : List DFeat :=
  dedupOn DFeat.uname (fs.flatMap fun f => match varOf f with
    | none => []
    | some x => (interestingOf S x).map (clauseOf S f))

/-- `_build_where_clauses` (`deep_feature_synthesis.py` 531-554). -/
def buildClauses (S : Synth) (e : String) (st : DState) : DState :=
  { st with clauses := (e, newClauses S ((st.feats.lookup e).getD [])) :: st.clauses }

/-- The tests before a neighbour is used (`deep_feature_synthesis.py` 386-391, 408-413, 439-444, 463-468). -/
def allowedVia (S : Synth) (path : RelPath) (x : String × RelPath) : Bool :=
  !S.ignoreEnts.contains x.1 && (S.allowedPaths.isEmpty || S.allowedPaths.contains (pathEntities (path ++ x.2)))

/-- Steps 2 and 5 of `_run_dfs` (`deep_feature_synthesis.py` 379-399, 432-452): visiting the neighbours not yet visited. -/
def visitAll (S : Synth) (run : DState → String → RelPath → Option Int → Except DfsErr DState) (path : RelPath) (m : Option Int)
    (st : DState) (l : List (String × RelPath)) : Except DfsErr DState :=
  foldE (fun st x => if st.feats.any (fun p => p.1 == x.1) || !allowedVia S path x then .ok st
    else run st x.1 (path ++ x.2) (lower1 m)) st l

/-- Step 3 of `_run_dfs` (`deep_feature_synthesis.py` 405-418). -/
def aggAll (S : Synth) (e : String) (path : RelPath) (m : Option Int) (st : DState) : Except DfsErr DState :=
  match deepBackwardEntities S.rels (S.rels.length + 1) e with
  | none => .error .diverges
  | some l => foldE (fun st x => if allowedVia S path x then buildAgg S e x.1 x.2 m st else .ok st) st l

/-- Step 6 of `_run_dfs` (`deep_feature_synthesis.py` 458-471). -/
def directAll (S : Synth) (e : String) (path : RelPath) (m : Option Int) (st : DState) : Except DfsErr DState :=
  foldE (fun st r => if allowedVia S path (r.parentE, [(true, r)]) then buildForward S r m st else .ok st) st
    (getForwardRelationships S.rels e)

/-- Steps 3 and 4 of `_run_dfs`. -/
def middleSteps (S : Synth) (e : String) (path : RelPath) (m : Option Int) (st : DState) : Except DfsErr DState :=
  match aggAll S e path m st with
  | .error err => .error err
  | .ok st => buildTransform S e m false st

/-- Steps 6 and 7 of `_run_dfs`, and the where clauses (`deep_feature_synthesis.py` 458-474). -/
def lastSteps (S : Synth) (e : String) (path : RelPath) (m : Option Int) (st : DState) : Except DfsErr DState :=
  match directAll S e path m st with
  | .error err => .error err
  | .ok st => match buildTransform S e m true st with
    | .error err => .error err
    | .ok st => .ok (buildClauses S e st)

/-- `_run_dfs` (`deep_feature_synthesis.py` 352-474), given how neighbours are visited. -/
def visit (S : Synth) (run : DState → String → RelPath → Option Int → Except DfsErr DState) (st : DState) (e : String)
    (path : RelPath) (m : Option Int) : Except DfsErr DState :=
  if exhausted m then .ok st
  else match S.ents.find? fun d => d.id == e with
    | none => .error (.py .keyError)
    | some d =>
      match addIdentity S d { st with feats := (e, []) :: st.feats } with
      | .error err => .error err
      | .ok st => match visitAll S run path m st (getBackwardEntities S.rels e) with
        | .error err => .error err
        | .ok st => match middleSteps S e path m st with
          | .error err => .error err
          | .ok st => match visitAll S run path m st (getForwardEntities S.rels e) with
            | .error err => .error err
            | .ok st => lastSteps S e path m st

/-- `_run_dfs` with a bound on the depth of its recursion. -/
def runDfs (S : Synth) : Nat → DState → String → RelPath → Option Int → Except DfsErr DState
  | 0 => fun _ _ _ _ => .error .diverges
  | n + 1 => visit S (runDfs S n)

/-- The features built for every entity, from the target, with enough room for the recursion (`C42`). -/
def allFeatures (S : Synth) (target : String) (m : Option Int) : Except DfsErr DState :=
  runDfs S (S.ents.length + 1) ⟨[], []⟩ target [] m

/-- The arguments of `build_features` and of the constructor that only select among the features built. `returnTypes = none` is
`'all'`. -/
structure Selection where
  returnTypes : Option (List String)
  dropContains : List String
  dropExact : List String
  maxFeatures : Int

/-- `filt` (`deep_feature_synthesis.py` 303-310). -/
def notTargetIndex (S : Synth) (target : String) (f : DFeat) : Bool :=
  match f.kind with
  | .identity v _ => !(f.entity == target && (S.ents.find? fun d => d.id == target).any fun d => d.index == v)
  | _ => true

/-- `contains in name`. -/
def infixOf (a b : String) : Bool := (List.range (b.toList.length + 1)).any fun i => a.toList.isPrefixOf (b.toList.drop i)

/-- `_filter_features` (`deep_feature_synthesis.py` 332-350). -/
def filterFeatures (sel : Selection) (fs : List DFeat) : List DFeat :=
  fs.filter fun f => !(sel.dropContains.any fun c => infixOf c f.name) && !sel.dropExact.contains f.name

/-- The depth limit the constructor settles on (`deep_feature_synthesis.py` 151-159). -/
def effectiveDepth (S : Synth) (maxDepth : Int) : Option Int :=
  let m := if maxDepth = -1 then none else some maxDepth
  if S.ents.length = 1 && (match m with | none => true | some k => decide (k > 1)) then some 1 else m

/-- The selection in `build_features` (`deep_feature_synthesis.py` 299-330). -/
def selectFeatures (S : Synth) (target : String) (sel : Selection) (fs : List DFeat) : List DFeat :=
  let typed := match sel.returnTypes with | none => fs | some ts => fs.filter fun f => ts.any fun t => S.L.sub f.vtype t
  let sorted := isort (fun a b => decide (a.depth [] ≤ b.depth [])) (typed.filter (notTargetIndex S target))
  let kept := filterFeatures sel sorted
  if sel.maxFeatures > 0 then kept.take sel.maxFeatures.toNat else kept

/-- `build_features` (`deep_feature_synthesis.py` 268-330) of an object made for the target with `max_depth`. -/
def buildFeatures (S : Synth) (target : String) (maxDepth : Int) (sel : Selection) : Except DfsErr (List DFeat) :=
  match allFeatures S target (effectiveDepth S maxDepth) with
  | .error err => .error err
  | .ok st => match st.feats.lookup target with
    | none => .error (.py .keyError)
    | some fs => .ok (selectFeatures S target sel fs)

end FT
