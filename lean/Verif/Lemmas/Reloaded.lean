import Verif.Model.Pipeline
import Verif.Props.Serialize
/-! # The synthesis looks up entities by their ids -/
namespace FT
open Spec

/-- Two lists of entities in which the same is found. -/
structure SameFound (ents ents' : List DEnt) : Prop where
  find : ∀ e : String, (ents'.find? fun d => d.id == e) = ents.find? fun d => d.id == e
  length : ents'.length = ents.length

section
variable {S : Synth} {ents' : List DEnt} (h : SameFound S.ents ents')
include h

theorem interestingOf_found (x : String × String) : interestingOf { S with ents := ents' } x = interestingOf S x := by
  unfold interestingOf
  dsimp only
  rw [h.find]

theorem newClauses_found (fs : List DFeat) : newClauses { S with ents := ents' } fs = newClauses S fs := by
  unfold newClauses
  congr 1
  congr 1
  funext f
  cases varOf f with
  | none => rfl
  | some x =>
    dsimp only
    rw [interestingOf_found h]
    rfl

theorem lastSteps_found (e : String) (path : RelPath) (m : Option Int) (st : DState) :
    lastSteps { S with ents := ents' } e path m st = lastSteps S e path m st := by
  have hd : directAll { S with ents := ents' } e path m st = directAll S e path m st := rfl
  have hb : ∀ st, buildTransform { S with ents := ents' } e m true st = buildTransform S e m true st := fun _ => rfl
  have hc : ∀ st, buildClauses { S with ents := ents' } e st = buildClauses S e st := by
    intro st
    unfold buildClauses
    rw [newClauses_found h]
  unfold lastSteps
  rw [hd]
  cases directAll S e path m st with
  | error _ => rfl
  | ok st' =>
    dsimp only
    rw [hb]
    cases buildTransform S e m true st' with
    | error _ => rfl
    | ok st'' => dsimp only; rw [hc]

theorem runDfs_found : ∀ n, runDfs { S with ents := ents' } n = runDfs S n
  | 0 => rfl
  | n + 1 => by
    funext st e path m
    simp only [runDfs, runDfs_found n]
    unfold visit
    dsimp only
    rw [h.find]
    have ha : ∀ d st, addIdentity { S with ents := ents' } d st = addIdentity S d st := fun _ _ => rfl
    have hv : ∀ st l, visitAll { S with ents := ents' } (runDfs S n) path m st l = visitAll S (runDfs S n) path m st l := fun _ _ => rfl
    have hm : ∀ st, middleSteps { S with ents := ents' } e path m st = middleSteps S e path m st := fun _ => rfl
    simp only [ha, hv, hm, lastSteps_found h]

theorem buildFeatures_found (target : String) (k : Int) (sel : Selection) :
    buildFeatures { S with ents := ents' } target k sel = buildFeatures S target k sel := by
  have hd : effectiveDepth { S with ents := ents' } k = effectiveDepth S k := by
    unfold effectiveDepth
    dsimp only
    rw [h.length]
  have hn : ∀ f, notTargetIndex { S with ents := ents' } target f = notTargetIndex S target f := by
    intro f
    unfold notTargetIndex
    dsimp only
    rw [h.find]
  have hs : ∀ fs, selectFeatures { S with ents := ents' } target sel fs = selectFeatures S target sel fs := by
    intro fs
    unfold selectFeatures
    have : notTargetIndex { S with ents := ents' } target = notTargetIndex S target := funext hn
    rw [this]
  unfold buildFeatures allFeatures
  rw [hd, runDfs_found h]
  dsimp only
  rw [h.length]
  simp only [hs]

end

/-- The features of a call depend on the entities only through looking them up. -/
theorem dfsFeatures_found (L : Lang) (equalScalar : Val → Prim) {ents ents' : List DEnt} (h : SameFound ents ents') (rels : List Relationship) (a : DfsArgs) :
    dfsFeatures L equalScalar ents' rels a = dfsFeatures L equalScalar ents rels a := by
  have hany : (ents'.any fun d => d.id == a.target) = ents.any fun d => d.id == a.target := by
    have := h.find a.target
    rw [Bool.eq_iff_iff, List.any_eq_true, List.any_eq_true, ← List.find?_isSome, ← List.find?_isSome, this]
  unfold dfsFeatures configure
  rw [hany]
  by_cases h1 : (!ents.any fun d => d.id == a.target) = true
  · rw [if_pos h1, if_pos h1]
  rw [if_neg h1, if_neg h1]
  by_cases h2 : a.ignoreEntities.contains a.target = true
  · rw [if_pos h2, if_pos h2]
  rw [if_neg h2, if_neg h2]
  by_cases h3 : (a.aggs.any fun p => p.transform) = true
  · rw [if_pos h3, if_pos h3]
  rw [if_neg h3, if_neg h3]
  by_cases h4 : ((a.trans ++ a.groupbys).any fun p => !p.transform) = true
  · rw [if_pos h4, if_pos h4]
  rw [if_neg h4, if_neg h4]
  dsimp only
  exact buildFeatures_found (S := { L := L, ents := ents, rels := rels, aggs := sortPrims a.aggs, trans := sortPrims a.trans, wheres := sortPrims a.wheres, groupbys := sortPrims a.groupbys, opts := optionsFor a.options a.ignoreEntities a.ignoreVariables, ignoreEnts := globalEntities a.options (sortPrims a.trans ++ sortPrims a.aggs ++ sortPrims a.wheres ++ sortPrims a.groupbys) a.ignoreEntities, ignoreVars := globalVars a.options (sortPrims a.trans ++ sortPrims a.aggs ++ sortPrims a.wheres ++ sortPrims a.groupbys) a.ignoreVariables, allowedPaths := a.allowedPaths, seeds := isort (fun f g => decide (f.uname ≤ g.uname)) a.seeds, whereLimit := a.whereLimit, equalScalar := equalScalar }) h a.target a.maxDepth a.sel

end FT
