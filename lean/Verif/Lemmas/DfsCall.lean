import Verif.Lemmas.OptionsSpec
namespace FT
open FT.Spec

/-- What the constructor leaves. -/
structure Configured (L : Lang) (equalScalar : Val → Prim) (ents : List DEnt) (rels : List Relationship) (a : DfsArgs) (S : Synth) : Prop where
  lang : S.L = L
  scalar : S.equalScalar = equalScalar
  ents : S.ents = ents
  rels : S.rels = rels
  seeds : ∀ f, f ∈ S.seeds ↔ f ∈ a.seeds
  aggs : ∀ p, p ∈ S.aggs ↔ p ∈ a.aggs
  trans : ∀ p, p ∈ S.trans ↔ p ∈ a.trans
  groupbys : ∀ p, p ∈ S.groupbys ↔ p ∈ a.groupbys
  wheres : ∀ p, p ∈ S.wheres ↔ p ∈ a.wheres
  opts : S.opts = optionsFor a.options a.ignoreEntities a.ignoreVariables
  limit : S.whereLimit = a.whereLimit
  target : a.target ∉ a.ignoreEntities
  present : ∃ d ∈ S.ents, d.id = a.target
  isAgg : ∀ p ∈ a.aggs, p.transform = false
  isTrans : ∀ p ∈ a.trans ++ a.groupbys, p.transform = true
  ents_ignored : ∀ e, e ∈ S.ignoreEnts ↔ e ∈ a.ignoreEntities ∧
    ¬∃ p ∈ a.aggs ++ a.trans ++ a.wheres ++ a.groupbys, ∃ os, UserOptions a.options p os ∧ IncludesEntity os e
  vars_ignored : ∀ e v, v ∈ S.ignoreVars e ↔ (∃ vs, a.ignoreVariables.lookup e = some vs ∧ v ∈ vs) ∧
    ¬∃ p ∈ a.aggs ++ a.trans ++ a.wheres ++ a.groupbys, ∃ os, UserOptions a.options p os ∧ IncludesVar os e v

theorem mem_sortPrims {ps : List Prim} {p : Prim} : p ∈ sortPrims ps ↔ p ∈ ps := mem_isort _ _ _

section
variable {L : Lang} {equalScalar : Val → Prim} {ents : List DEnt} {rels : List Relationship} {a : DfsArgs}

theorem configure_ok {S : Synth} (h : configure L equalScalar ents rels a = .ok S) : Configured L equalScalar ents rels a S := by
  unfold configure at h
  split at h
  · cases h
  · next h1 =>
    split at h
    · cases h
    · next h2 =>
      split at h
      · cases h
      · next h3 =>
        split at h
        · cases h
        · next h4 =>
          have hp : ∀ p, p ∈ sortPrims a.trans ++ sortPrims a.aggs ++ sortPrims a.wheres ++ sortPrims a.groupbys ↔
              p ∈ a.aggs ++ a.trans ++ a.wheres ++ a.groupbys := by
            intro p
            simp only [List.mem_append, mem_sortPrims]
            constructor
            · rintro (((h | h) | h) | h) <;> simp [h]
            · rintro (((h | h) | h) | h) <;> simp [h]
          cases h
          refine ⟨rfl, rfl, rfl, rfl, fun f => mem_isort _ _ _, fun p => mem_sortPrims, fun p => mem_sortPrims, fun p => mem_sortPrims,
            fun p => mem_sortPrims, rfl, rfl, by simpa using h2, by simpa using h1, ?_, ?_, ?_, ?_⟩
          · intro p hp'
            have := h3
            simp only [List.any_eq_true, not_exists, not_and, Bool.not_eq_true] at this
            exact this p hp'
          · intro p hp'
            have := h4
            simp only [List.any_eq_true, not_exists, not_and, Bool.not_eq_true] at this
            simpa using this p hp'
          · intro e
            simp only [globalEntities, List.mem_filter, Bool.not_eq_true', ← Bool.not_eq_true, List.any_eq_true, List.contains_iff_mem]
            refine and_congr_right fun _ => not_congr ⟨?_, ?_⟩
            · rintro ⟨p, hp1, he⟩
              cases hu : userOptions a.options p with
              | none => simp [hu, includedEntities] at he
              | some os =>
                simp only [hu, Option.getD_some] at he
                exact ⟨p, (hp p).mp hp1, os, userOptions_some.mp hu, mem_includedEntities.mp he⟩
            · rintro ⟨p, hp1, os, hu, he⟩
              exact ⟨p, (hp p).mpr hp1, by rw [userOptions_some.mpr hu]; exact mem_includedEntities.mpr he⟩
          · intro e v
            simp only [globalVars, List.mem_filter, Bool.not_eq_true', ← Bool.not_eq_true, mem_includedVar]
            refine and_congr ?_ (not_congr ⟨?_, ?_⟩)
            · cases a.ignoreVariables.lookup e with
              | none => simp
              | some vs => simp
            · rintro ⟨p, hp1, x⟩; exact ⟨p, (hp p).mp hp1, x⟩
            · rintro ⟨p, hp1, x⟩; exact ⟨p, (hp p).mpr hp1, x⟩

theorem dfs_ok {r : List DFeat} (h : dfsFeatures L equalScalar ents rels a = .ok r) :
    ∃ S st fs, configure L equalScalar ents rels a = .ok S ∧ allFeatures S a.target (effectiveDepth S a.maxDepth) = .ok st ∧
      st.feats.lookup a.target = some fs ∧ r = selectFeatures S a.target a.sel fs := by
  unfold dfsFeatures at h
  split at h
  · cases h
  · next S hS =>
    unfold buildFeatures at h
    split at h
    · cases h
    · next st hst =>
      split at h
      · cases h
      · next fs hfs => cases h; exact ⟨S, st, fs, hS, hst, hfs, rfl⟩

theorem selectFeatures_sub {S : Synth} {t : String} {sel : Selection} {fs : List DFeat} {f : DFeat} (h : f ∈ selectFeatures S t sel fs) :
    f ∈ fs ∧ notTargetIndex S t f = true := by
  unfold selectFeatures at h
  have h1 : f ∈ filterFeatures sel (isort (fun a b => decide (a.depth [] ≤ b.depth []))
      ((match sel.returnTypes with | none => fs | some ts => fs.filter fun f => ts.any fun t => S.L.sub f.vtype t).filter (notTargetIndex S t))) := by
    by_cases hm : sel.maxFeatures > 0
    · simp only [if_pos hm] at h
      exact List.mem_of_mem_take h
    · simp only [if_neg hm] at h
      exact h
  have h2 := (mem_isort _ _ _).mp (List.mem_filter.mp h1).1
  obtain ⟨h3, h4⟩ := List.mem_filter.mp h2
  refine ⟨?_, h4⟩
  split at h3
  · exact h3
  · exact (List.mem_filter.mp h3).1

/-- Everything a call returns was built for the target. -/
theorem dfs_built (hL : ∀ l, (L.setOrder l).Perm l) {r : List DFeat} (h : dfsFeatures L equalScalar ents rels a = .ok r) :
    ∃ S, Configured L equalScalar ents rels a S ∧
      ∀ f ∈ r, Built S a.target (effectiveDepth S a.maxDepth) f ∧ f.entity = a.target ∧ Whole S f := by
  obtain ⟨S, st, fs, h1, h2, h3, rfl⟩ := dfs_ok h
  have hc := configure_ok h1
  have hok := allFeatures_ok (by rw [hc.lang]; exact hL) h2
  refine ⟨S, hc, fun f hf => ?_⟩
  exact (hok.feats _ (lookup_mem_pair h3)).2.2 f (selectFeatures_sub hf).1

theorem uses_seeds {s1 s2 : List DFeat} (hs : ∀ f, f ∈ s1 ↔ f ∈ s2) {f g : DFeat} (h : DepUses s1 f g) : DepUses s2 f g := by
  induction h with
  | self h => exact .self fun h' => h ((hs _).mpr h')
  | dep h hd _ ih => exact .dep (fun h' => h ((hs _).mpr h')) hd ih

theorem inputUses_seeds {s1 s2 : List DFeat} (hs : ∀ f, f ∈ s1 ↔ f ∈ s2) {f g : DFeat} (h : InputUses s1 f g) : InputUses s2 f g := by
  induction h with
  | self h => exact .self fun h' => h ((hs _).mpr h')
  | dep h hd _ ih => exact .dep (fun h' => h ((hs _).mpr h')) hd ih

theorem inputUses_built {S : Synth} {t : String} {M : Option Int} {f g : DFeat} (hu : InputUses S.seeds f g) (h : Built S t M f) :
    Built S t M g ∧ g ∉ S.seeds := by
  induction hu with
  | self hs => exact ⟨h, hs⟩
  | dep hs hd _ ih =>
    refine ih ?_
    cases h with
    | identity => simp [identityOf, DFeat.bases] at hd
    | seed _ hf => exact absurd hf hs
    | slice f i hf => simp [sliceOf, DFeat.bases] at hd; exact hd ▸ hf
    | trans e n p t _ _ _ hb => exact hb _ hd
    | groupby e n p t g _ _ _ hb hg =>
      simp [DFeat.bases] at hd
      rcases hd with hd | hd
      · exact hb _ hd
      · exact hd ▸ hg
    | agg e c n path p t _ _ _ _ _ _ hb => exact hb _ hd
    | aggWhere e c n path p t w f x v _ _ _ _ _ _ hb => exact hb _ hd
    | direct r f _ hf => simp [mkDirect, DFeat.bases] at hd; exact hd ▸ hf

theorem infixOf_iff {x y : String} : infixOf x y = true ↔ x.toList <:+: y.toList := by
  unfold infixOf
  rw [List.any_eq_true]
  constructor
  · rintro ⟨i, _, h⟩
    have h1 := List.isPrefixOf_iff_prefix.mp h
    obtain ⟨s, hs⟩ := h1
    exact ⟨y.toList.take i, s, by rw [List.append_assoc, hs, List.take_append_drop]⟩
  · rintro ⟨p, s, h⟩
    refine ⟨p.length, by simp only [List.mem_range]; rw [← h]; simp only [List.length_append]; omega, ?_⟩
    rw [List.isPrefixOf_iff_prefix, ← h]
    exact ⟨s, by simp⟩

/-- The selection with nothing left out. -/
def everything : Selection := ⟨none, [], [], -1⟩

/-- The type and name conditions. -/
def dfsWanted (S : Synth) (sel : Selection) (f : DFeat) : Bool :=
  (match sel.returnTypes with | none => true | some ts => ts.any fun t => S.L.sub f.vtype t) &&
    (!(sel.dropContains.any fun c => infixOf c f.name) && !sel.dropExact.contains f.name)

theorem select_everything (S : Synth) (t : String) (sel : Selection) (fs : List DFeat) :
    selectFeatures S t sel fs = if sel.maxFeatures > 0
      then ((selectFeatures S t everything fs).filter (dfsWanted S sel)).take sel.maxFeatures.toNat
      else (selectFeatures S t everything fs).filter (dfsWanted S sel) := by
  have total : ∀ x y : DFeat, decide (x.depth [] ≤ y.depth []) = true ∨ decide (y.depth [] ≤ x.depth []) = true := by
    intro x y; simp only [decide_eq_true_eq]; omega
  have trans : ∀ x y z : DFeat, decide (x.depth [] ≤ y.depth []) = true → decide (y.depth [] ≤ z.depth []) = true → decide (x.depth [] ≤ z.depth []) = true := by
    intro x y z; simp only [decide_eq_true_eq]; omega
  have hall : selectFeatures S t everything fs = isort (fun a b => decide (a.depth [] ≤ b.depth [])) (fs.filter (notTargetIndex S t)) := by
    unfold selectFeatures everything filterFeatures
    simp only [List.any_nil, Bool.not_false, List.contains_nil, Bool.and_self]
    rw [if_neg (by decide)]
    rw [List.filter_eq_self.mpr (by simp)]
  have hkept : filterFeatures sel (isort (fun a b => decide (a.depth [] ≤ b.depth []))
      ((match sel.returnTypes with | none => fs | some ts => fs.filter fun f => ts.any fun t => S.L.sub f.vtype t).filter (notTargetIndex S t)))
      = (selectFeatures S t everything fs).filter (dfsWanted S sel) := by
    rw [hall, isort_filter _ total trans]
    unfold filterFeatures
    rw [isort_filter _ total trans]
    congr 1
    cases h : sel.returnTypes with
    | none =>
      simp only [List.filter_filter]
      refine List.filter_congr fun f _ => ?_
      simp [dfsWanted, h]
    | some ts =>
      simp only [List.filter_filter]
      refine List.filter_congr fun f _ => ?_
      simp only [dfsWanted, h]
      cases (ts.any fun t => S.L.sub f.vtype t) <;> simp
  rw [← hkept]
  rfl

end
end FT
