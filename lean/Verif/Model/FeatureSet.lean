import Verif.Model.Feature
import Verif.Model.Trie
/-!
# The computation plan

Models `featuretools/computational_backends/feature_set.py` and `gather_approximate_features` of
`computational_backends/utils.py`.  Python sets of names are lists here, in some order; nothing proved depends
on that order.
-/
namespace FT

/-- An edge of a feature trie: a relationship with its direction. -/
abbrev Edge := Bool × Relationship

/-- The value of a feature trie node (`feature_set.py` 65-83): needs the full entity?, the features needed on the
full entity, the other features. -/
structure NodeVal where
  need : Bool
  full : List String
  notFull : List String
deriving Inhabited, DecidableEq

/-- `Trie(default=lambda: (False, set(), set()))` (`feature_set.py` 89). -/
def NodeVal.empty : NodeVal := ⟨false, [], []⟩

abbrev FTrie := Trie Edge NodeVal
/-- The trie of approximated feature names (`utils.py` 91). -/
abbrev ATrie := Trie Edge (List String)

/-- `set.add` -/
def setAdd (s : List String) (n : String) : List String := if s.contains n then s else s ++ [n]
/-- `set.remove` -/
def setRemove (s : List String) (n : String) : List String := s.filter fun m => m ≠ n

/-- Register a feature name at a node (`feature_set.py` 114-121 and 128-130). -/
def NodeVal.visit (full : Bool) (name : String) (v : NodeVal) : NodeVal :=
  if full then { need := true, full := setAdd v.full name, notFull := setRemove v.notFull name }
  else if v.full.contains name then v
  else { v with notFull := setAdd v.notFull name }

/-- Mark a node as needing the full entity (`feature_set.py` 126-127). -/
def NodeVal.mark (v : NodeVal) : NodeVal := { v with need := true }

/-- The loop marking every node on the relationship path (`feature_set.py` 123-127): the node after each prefix. -/
def markPath : List Edge → FTrie → FTrie
  | [], t => t
  | e :: es, .node v cs =>
    .node v (Trie.upsert e (fun s => markPath es (s.setValue s.value.mark)) (Trie.new NodeVal.empty) cs)

/-- The step of `_add_feature_to_trie` before the recursion (`feature_set.py` 104-133): put the name in one of the sets
of this node and mark, or just create, the nodes on the relationship path. -/
def register (full : Bool) (name : String) (path : List Edge) (t : FTrie) : FTrie :=
  let t1 := t.setValue (t.value.visit full name)
  if full then markPath path t1 else Trie.modifyAt NodeVal.empty id path t1

mutual
/-- `FeatureSet._add_feature_to_trie` (`feature_set.py` 99-141). With `unwrap` the feature comes from the loop over the
dependencies and a slice is first replaced by the feature it is a slice of (`feature_set.py` 138-139). -/
def addFeature (unwrap anc : Bool) : Feat → ATrie → FTrie → FTrie
  | .mk info bases wh, approx, t =>
    match unwrap, info.kind with
    | true, .slice _ => addHead anc bases approx t
    | _, _ =>
      let f := Feat.mk info bases wh
      let full := anc || f.usesFull
      if approx.value.contains f.uniqueName then t
      else
        let sub := Trie.nodeAt [] f.path approx
        addDeps full f.path sub wh (addDeps full f.path sub bases (register full f.uniqueName f.path t))
/-- The loop over the dependencies (`feature_set.py` 137-141). -/
def addDeps (full : Bool) (path : List Edge) (sub : ATrie) : List Feat → FTrie → FTrie
  | [], t => t
  | d :: ds, t => addDeps full path sub ds (Trie.modifyAt NodeVal.empty (addFeature true full d sub) path t)
/-- `dep_feat.base_feature` is the first base feature (`feature_set.py` 139). -/
def addHead (anc : Bool) : List Feat → ATrie → FTrie → FTrie
  | [], _, t => t
  | b :: _, sub, t => addFeature false anc b sub t
end

/-- `FeatureSet._build_feature_trie` (`feature_set.py` 85-97). -/
def buildTrie (targets : List Feat) (approx : ATrie) : FTrie :=
  targets.foldl (fun t f => addFeature false false f approx t) (Trie.new NodeVal.empty)

/-- `FeatureSet.features_by_name` (`feature_set.py` 44, 46-51): later entries win. -/
def featuresByName (targets : List Feat) : List (String × Feat) :=
  (targets.map fun f => (f.uniqueName, f)) ++
    targets.flatMap fun f => (deepDeps [] f).map fun d => (d.uniqueName, d)

/-- Look a feature up by unique name; the last assignment to the key counts. -/
def lookupFeature (tbl : List (String × Feat)) (n : String) : Option Feat := tbl.reverse.lookup n

/-- `_get_use_previous` (`feature_set.py` 206-215). An empty dictionary of times cannot occur (`Timedelta` has a unit). -/
def getUsePrevious (f : Feat) : String × Int :=
  match f.kind with
  | .agg _ _ (some [(unit, value)]) _ => (unit, value)
  | _ => ("", -1)

/-- `_get_where` (`feature_set.py` 218-222). -/
def getWhere (f : Feat) : String :=
  match f.kind, f.wh with
  | .agg _ _ _ _, w :: _ => w.uniqueName
  | _, _ => ""

/-- `_get_groupby` (`feature_set.py` 225-229). -/
def getGroupby (f : Feat) : String :=
  match f.kind, f.bases.getLast? with
  | .groupby _, some g => g.uniqueName
  | _, _ => ""

/-- `str(f.__class__)` -/
def className (f : Feat) : String :=
  "<class 'featuretools.feature_base.feature_base." ++
  (match f.kind with
   | .identity _ => "IdentityFeature"
   | .direct _ => "DirectFeature"
   | .agg _ _ _ _ => "AggregationFeature"
   | .trans _ => "TransformFeature"
   | .groupby _ => "GroupByTransformFeature"
   | .slice _ => "FeatureOutputSlice") ++ "'>"

/-- A string as a sequence of code points: Python compares strings code point by code point. -/
def codes (s : String) : List Int := s.toList.map fun c => (c.toNat : Int)

/-- `key_func` of `group_features` (`feature_set.py` 151-158): a tuple of numbers and strings, compared lexicographically;
every component is written as a list of integers. -/
def groupKey (rels : List Relationship) (depth : Int) (f : Feat) : List (List Int) :=
  [[depth], codes (f.pathName rels), codes (className f), codes (getUsePrevious f).1, [(getUsePrevious f).2],
   codes (getWhere f), [if f.usesFull then 1 else 0], codes (getGroupby f)]

/-- The loop of `_get_feature_depths` (`feature_set.py` 173-190) over the pair of dictionaries `order` and `depths`;
`order` is a `defaultdict(int)`. -/
structure DepthState where
  order : String → Int
  depths : String → Option Int

/-- `order[dep] = min(order[f] - 1, order[dep])` -/
def lowerOrder (fo : Int) (order : String → Int) (dep : String) : String → Int :=
  fun n => if n = dep then min (fo - 1) (order dep) else order n

/-- One dependency after the other (`feature_set.py` 185-187). The value `order[f]` is read again for every dependency,
and a feature is not its own dependency. -/
def lowerAll (f : String) (order : String → Int) : List String → (String → Int)
  | [] => order
  | d :: ds => lowerAll f (lowerOrder (order f) order d) ds

/-- The body of the `while` loop for the feature taken from the queue (`feature_set.py` 179-187). -/
def depthStep (s : DepthState) (f : Feat) : DepthState :=
  let depths := fun n => if n = f.uniqueName then some (s.order f.uniqueName) else s.depths n
  if f.path.isEmpty then { order := lowerAll f.uniqueName s.order (f.deps.map Feat.uniqueName), depths := depths }
  else { order := s.order, depths := depths }

/-- What the body appends to the queue (`feature_set.py` 188). -/
def depthPush (f : Feat) : List Feat := if f.path.isEmpty then f.deps else []

theorem Feat.mem_size_lt (l : List Feat) (f : Feat) (h : f ∈ l) : f.size ≤ Feat.sizeList l := by
  induction l with
  | nil => cases h
  | cons a l ih =>
    simp only [Feat.sizeList]
    rcases List.mem_cons.mp h with rfl | h
    · omega
    · have := ih h; omega

theorem Feat.sizeList_append (a b : List Feat) : Feat.sizeList (a ++ b) = Feat.sizeList a + Feat.sizeList b := by
  induction a with
  | nil => simp [Feat.sizeList]
  | cons x a ih => simp only [List.cons_append, Feat.sizeList, ih]; omega

theorem depthPush_size (f : Feat) : Feat.sizeList (depthPush f) < f.size := by
  cases f with
  | mk i b w =>
    unfold depthPush Feat.deps
    split
    · simp only [Feat.bases, Feat.wh, Feat.sizeList_append, Feat.size]; omega
    · simp only [Feat.sizeList, Feat.size]; omega

/-- The `while queue` loop with a bound on the number of steps. -/
def depthLoop : Nat → List Feat → DepthState → DepthState
  | 0, _, s => s
  | _, [], s => s
  | n + 1, f :: queue, s => depthLoop n (queue ++ depthPush f) (depthStep s f)

/-- `FeatureSet._get_feature_depths` (`feature_set.py` 168-190). Each step replaces a feature by smaller ones, so the
total size of the queued features bounds the number of steps. -/
def featureDepths (fs : List Feat) : String → Option Int :=
  (depthLoop (Feat.sizeList fs) fs ⟨fun _ => 0, fun _ => none⟩).depths

/-- `itertools.groupby` on a list: maximal runs of neighbours with the same key. -/
def groupRuns {α κ : Type} [DecidableEq κ] (key : α → κ) : List α → List (List α)
  | [] => []
  | a :: as =>
    match groupRuns key as with
    | (b :: g) :: gs => if key a = key b then (a :: b :: g) :: gs else [a] :: (b :: g) :: gs
    | gs => [a] :: gs

/-- `FeatureSet.group_features` (`feature_set.py` 143-166) for the features with the given names. -/
def groupFeatures (rels : List Relationship) (fs : List Feat) : List (List Feat) :=
  let depths := featureDepths fs
  let key := fun f : Feat => groupKey rels ((depths f.uniqueName).getD 0) f
  groupRuns key (isort (fun a b => (compare (key a) (key b)).isLE) fs)

/-- `FeatureSet.uses_full_entity(feature, check_dependents=True)` (`feature_set.py` 53-61, 192-201): the feature, or a
feature of the set that has it among its deep dependencies, is a transform feature that needs the full entity. -/
def usesFullOrDependent (targets : List Feat) (f : Feat) : Bool :=
  f.usesFull || (featuresByName targets).any fun g =>
    ((lookupFeature (featuresByName targets) g.1).getD g.2).usesFull &&
      (deepDeps [] g.2).any fun d => d.uniqueName == f.uniqueName

/-- Follow the chain of direct features (`utils.py` 98-103): the path and the first feature that is not direct. -/
def followDirect : Nat → RelPath → Feat → RelPath × Feat
  | 0, p, f => (p, f)
  | n + 1, p, f =>
    match f.kind, f.bases with
    | .direct _, b :: _ => followDirect n (p ++ f.path) b
    | _, _ => (p, f)

/-- One target feature in the loop of `gather_approximate_features` (`utils.py` 93-107). -/
def gatherOne (targets : List Feat) (t : ATrie) (f : Feat) : ATrie :=
  if usesFullOrDependent targets f then t
  else match f.kind with
    | .direct _ =>
      let pb := followDirect f.size [] f
      match pb.2.kind with
      | .agg _ _ _ _ => Trie.modifyAt [] (fun s => s.setValue (setAdd s.value pb.2.uniqueName)) pb.1 t
      | _ => t
    | _ => t

/-- `gather_approximate_features` (`utils.py` 79-109). -/
def gatherApproximate (targets : List Feat) : ATrie := targets.foldl (gatherOne targets) (Trie.new [])

end FT
