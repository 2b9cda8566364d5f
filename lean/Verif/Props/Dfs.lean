import Verif.Lemmas.DfsCall
/-!
# Deep Feature Synthesis

Properties of `dfs(features_only=True)`: what is returned (C39), how deep (C40), what is left out (C41), that it returns
(C42), how primitives stack (C44, C45) and which inputs they take (C46).
-/
namespace FT
open FT.Spec

section
variable (L : Lang) (equalScalar : Val → Prim) (ents : List DEnt) (rels : List Relationship) (a : DfsArgs)

/-! ## What is returned -/

/-- C39. Every returned feature is a feature of the target, other than the column of its index; their names are pairwise
different and they are sorted by depth: every chain of dependencies of a feature is as long as one of any later feature. -/
theorem C39_returned (hL : ∀ l, (L.setOrder l).Perm l) (hs : ∀ f ∈ a.seeds, Proper f) {r : List DFeat}
    (h : dfsFeatures L equalScalar ents rels a = .ok r) :
    (∀ f ∈ r, f.entity = a.target) ∧ (r.map DFeat.name).Nodup ∧
      r.Pairwise (fun f g => ∀ n, DepChain [] f n → DepChain [] g n) ∧
      (∀ f ∈ r, ∀ v t, f.kind = .identity v t → ∀ d, ents.find? (fun d => d.id == a.target) = some d → v ≠ d.index) := by
  obtain ⟨S, st, fs, h1, h2, h3, rfl⟩ := dfs_ok h
  have hc := configure_ok h1
  have hok := allFeatures_ok (by rw [hc.lang]; exact hL) h2
  obtain ⟨_, hd, hf⟩ := hok.feats _ (lookup_mem_pair h3)
  have hent : ∀ f ∈ selectFeatures S a.target a.sel fs, f.entity = a.target := fun f hf' => (hf f (selectFeatures_sub hf').1).2.1
  have hprop : ∀ f ∈ selectFeatures S a.target a.sel fs, Proper f := fun f hf' =>
    built_proper (fun g hg => hs g ((hc.seeds g).mp hg)) (hf f (selectFeatures_sub hf').1).1
  have hsub : (selectFeatures S a.target a.sel fs).Sublist (isort (fun a b => decide (a.depth [] ≤ b.depth [])) (fs.filter (notTargetIndex S a.target))) := by
    have hall : selectFeatures S a.target everything fs = isort (fun a b => decide (a.depth [] ≤ b.depth [])) (fs.filter (notTargetIndex S a.target)) := by
      unfold selectFeatures everything filterFeatures
      simp only [List.any_nil, Bool.not_false, List.contains_nil, Bool.and_self]
      rw [if_neg (by decide), List.filter_eq_self.mpr (by simp)]
    rw [← hall, select_everything]
    split
    · exact (List.take_sublist _ _).trans List.filter_sublist
    · exact List.filter_sublist
  refine ⟨hent, ?_, ?_, ?_⟩
  · have hdist : Distinct (selectFeatures S a.target a.sel fs) := by
      rw [distinct_iff]
      refine (hsub.map DFeat.uname).nodup ?_
      exact ((isort_perm _ _).map DFeat.uname).nodup_iff.mpr (distinct_iff.mp (List.Pairwise.filter _ hd))
    unfold List.Nodup
    rw [List.pairwise_map]
    refine List.Pairwise.imp_of_mem (fun {f g} hf' hg' hne => ?_) hdist
    intro e
    apply hne
    unfold DFeat.uname
    rw [e, hent f hf', hent g hg']
  · have hsort : (selectFeatures S a.target a.sel fs).Pairwise fun x y => decide (x.depth [] ≤ y.depth []) = true := by
      refine List.Pairwise.sublist hsub (isort_sorted _ ?_ ?_ _)
      · intro x y; simp only [decide_eq_true_eq]; omega
      · intro x y z; simp only [decide_eq_true_eq]; omega
    refine List.Pairwise.imp_of_mem (fun {f g} hf' hg' hle n hn => ?_) hsort
    have h1 := depChain_le hn
    exact depChain_shorter (depth_chain _ rfl (hprop g hg')) (Nat.le_trans h1 (of_decide_eq_true hle))
  · intro f hf' v t hk d hd' e
    have := (selectFeatures_sub hf').2
    unfold notTargetIndex at this
    rw [hk, hent f hf', hc.ents, hd'] at this
    simp [e] at this

/-- C39. The other arguments only select: with all types, nothing dropped and no limit the call gives a list of features, and this
call gives those of a requested type whose name is not dropped, in the same order, and of these the first `max_features`. -/
theorem C39_selection :
    (∀ e, dfsFeatures L equalScalar ents rels a = .error e ↔ dfsFeatures L equalScalar ents rels { a with sel := ⟨none, [], [], -1⟩ } = .error e) ∧
    ∀ r, dfsFeatures L equalScalar ents rels a = .ok r →
      ∃ all kept, dfsFeatures L equalScalar ents rels { a with sel := ⟨none, [], [], -1⟩ } = .ok all ∧ kept.Sublist all ∧
        (∀ f ∈ all, f ∈ kept ↔ (∀ ts, a.sel.returnTypes = some ts → ∃ t ∈ ts, L.sub f.vtype t = true) ∧
          (∀ c ∈ a.sel.dropContains, ¬ c.toList <:+: f.name.toList) ∧ f.name ∉ a.sel.dropExact) ∧
        (a.sel.maxFeatures ≤ 0 → r = kept) ∧ (a.sel.maxFeatures > 0 → r = kept.take a.sel.maxFeatures.toNat) := by
  have hconf : configure L equalScalar ents rels { a with sel := ⟨none, [], [], -1⟩ } = configure L equalScalar ents rels a := rfl
  constructor
  · intro e
    unfold dfsFeatures
    rw [hconf]
    split
    · simp
    · unfold buildFeatures
      split
      · next h => simp only [h]
      · next st h =>
        simp only [h]
        split <;> simp_all
  · intro r h
    obtain ⟨S, st, fs, h1, h2, h3, rfl⟩ := dfs_ok h
    have hc := configure_ok h1
    refine ⟨selectFeatures S a.target everything fs, (selectFeatures S a.target everything fs).filter (dfsWanted S a.sel), ?_,
      List.filter_sublist, ?_, ?_, ?_⟩
    · unfold dfsFeatures
      rw [hconf, h1]
      unfold buildFeatures
      simp only [h2, h3]
      rfl
    · intro f hf
      rw [List.mem_filter]
      simp only [hf, true_and]
      unfold dfsWanted
      rw [Bool.and_eq_true, Bool.and_eq_true]
      refine and_congr ?_ (and_congr ?_ ?_)
      · cases a.sel.returnTypes with
        | none => simp
        | some ts => simp [hc.lang]
      · simp only [Bool.not_eq_true', ← Bool.not_eq_true, List.any_eq_true, not_exists, not_and, infixOf_iff]
      · simp
    · intro hm
      rw [select_everything, if_neg (by omega)]
    · intro hm
      rw [select_everything, if_pos hm]

/-! ## Depth -/

/-- C40 for schemas where going up from the target is never a detour: no entity above the target is nearer by any walk along
relationships than by a chain of parents. (Every schema without undirected cycles is one.) Without where features and
features of several outputs, no returned feature is deeper than `max_depth`, where a seed feature counts as a column. -/
theorem C40_max_depth_partial (hL : ∀ l, (L.setOrder l).Perm l) (hw : a.wheres = [])
    (ha : ∀ p ∈ a.aggs ++ a.trans ++ a.groupbys, p.outputs = 1) (hs : ∀ f ∈ a.seeds, f.outputs = 1)
    (hd : ∀ b path, Chain rels a.target b path → ∀ n, Walk rels a.target b n → path.length ≤ n) (hk : a.maxDepth ≠ -1)
    {r : List DFeat} (h : dfsFeatures L equalScalar ents rels a = .ok r) :
    ∀ f ∈ r, ∀ n : Nat, DepChain (a.seeds.map DFeat.uname) f n → (n : Int) ≤ a.maxDepth := by
  obtain ⟨S, hc, hr⟩ := dfs_built hL h
  intro f hf n hn
  obtain ⟨hb, he, hwh⟩ := hr f hf
  have hn' : DepChain (S.seeds.map DFeat.uname) f n := by
    clear hb he hf hwh
    induction hn with
    | nil => exact .nil _
    | cons h1 h2 h3 _ ih =>
      refine .cons h1 (fun hm => h2 ?_) h3 ih
      obtain ⟨g, hg, e⟩ := List.mem_map.mp hm
      exact List.mem_map.mpr ⟨g, (hc.seeds g).mp hg, e⟩
  obtain ⟨k, hk1, hk2⟩ : ∃ k, effectiveDepth S a.maxDepth = some k ∧ k ≤ a.maxDepth := by
    unfold effectiveDepth
    simp only [if_neg hk]
    split
    · next hx => simp at hx; exact ⟨1, rfl, by omega⟩
    · exact ⟨_, rfl, by omega⟩
  rw [hk1] at hb
  obtain ⟨q, path, l, b1, b2, b3⟩ := built_byLevel (List.eq_nil_iff_forall_not_mem.mpr fun p hp => by
      have := (hc.wheres p).mp hp
      rw [hw] at this
      cases this)
    (fun p hp => ha p (by
      simp only [List.mem_append, hc.aggs, hc.trans, hc.groupbys] at hp ⊢
      exact hp)) (fun f hf => hs f ((hc.seeds f).mp hf)) hb
  rw [he, hc.rels] at b1
  rw [hc.rels] at b2
  have h1 := hd q path b1 l b2
  have h2 := depChain_le hn'
  omega

/-- C40 in general: aggregations without a condition and transform features are within `max_depth`, direct features at most one
deeper, aggregations with a condition at most three. -/
theorem C40_overshoot_partial (hL : ∀ l, (L.setOrder l).Perm l) (hk : 0 ≤ a.maxDepth) {r : List DFeat}
    (h : dfsFeatures L equalScalar ents rels a = .ok r) :
    ∀ f ∈ r, f ∉ a.seeds → ∀ n : Nat, DepChain (a.seeds.map DFeat.uname) f n →
      (n : Int) ≤ a.maxDepth + 3 ∧ (f.wh = [] → (n : Int) ≤ a.maxDepth + 1) ∧
        (f.wh = [] → (∀ r, f.kind ≠ .direct r) → (n : Int) ≤ a.maxDepth) := by
  obtain ⟨S, hc, hr⟩ := dfs_built hL h
  intro f hf hfs n hn
  obtain ⟨hb, he, hwh⟩ := hr f hf
  have hn' : DepChain (S.seeds.map DFeat.uname) f n := by
    clear hb he hf hfs hwh
    induction hn with
    | nil => exact .nil _
    | cons h1 h2 h3 _ ih =>
      refine .cons h1 (fun hm => h2 ?_) h3 ih
      obtain ⟨g, hg, e⟩ := List.mem_map.mp hm
      exact List.mem_map.mpr ⟨g, (hc.seeds g).mp hg, e⟩
  obtain ⟨k, hk1, hk2, hk3⟩ : ∃ k, effectiveDepth S a.maxDepth = some k ∧ k ≤ a.maxDepth ∧ 0 ≤ k := by
    unfold effectiveDepth
    simp only [if_neg (show ¬a.maxDepth = -1 by omega)]
    split
    · next hx => simp at hx; exact ⟨1, rfl, by omega, by omega⟩
    · exact ⟨_, rfl, by omega, hk⟩
  rw [hk1] at hb
  have hns : f ∉ S.seeds := fun h => hfs ((hc.seeds f).mp h)
  obtain ⟨b1, b2, b3, _⟩ := built_depth hk3 hb (by rcases hwh with h | h; exact absurd h hns; exact h)
  have h2 := depChain_le hn'
  refine ⟨by omega, fun hw => ?_, fun hw hdir => ?_⟩
  · by_cases hdir : ∃ r, f.kind = .direct r
    · have := b3 hdir hns; omega
    · have := b2 hw (fun r hr => hdir ⟨r, hr⟩) hns; omega
  · have := b2 hw hdir hns; omega

/-! ## Ignoring -/

/-- C41. No returned feature uses, at any depth, a feature of an ignored entity, unless the options of some primitive include the
entity, nor an ignored column (given by the name of the variable), unless the options of some primitive list it. -/
theorem C41_ignored (hL : ∀ l, (L.setOrder l).Perm l) {r : List DFeat} (h : dfsFeatures L equalScalar ents rels a = .ok r) {f : DFeat}
    (hf : f ∈ r) {g : DFeat} (hu : DepUses a.seeds f g) :
    (g.entity ∈ a.ignoreEntities → ∃ p ∈ a.aggs ++ a.trans ++ a.wheres ++ a.groupbys, ∃ os, UserOptions a.options p os ∧ IncludesEntity os g.entity) ∧
    (∀ v t vs, g.kind = .identity v t → a.ignoreVariables.lookup g.entity = some vs → g.name ∈ vs →
      ∃ p ∈ a.aggs ++ a.trans ++ a.wheres ++ a.groupbys, ∃ os, UserOptions a.options p os ∧ IncludesVar os g.entity g.name) := by
  obtain ⟨S, hc, hr⟩ := dfs_built hL h
  obtain ⟨hp, hns⟩ := part_uses (uses_seeds (fun f => (hc.seeds f).symm) hu) (.inl (hr f hf).1)
  constructor
  · intro hi
    refine Classical.byContradiction fun hn => ?_
    have hi' := (hc.ents_ignored g.entity).mpr ⟨hi, hn⟩
    rcases part_open hp with ho | ho
    · rw [ho] at hi; exact hc.target hi
    · exact ho hi'
  · intro v t vs hk hvs hmem
    refine Classical.byContradiction fun hn => ?_
    have hi' := (hc.vars_ignored g.entity g.name).mpr ⟨⟨vs, hvs, hmem⟩, hn⟩
    rcases hp with hp | hp
    · cases hp with
      | identity d w _ _ hni => exact hni hi'
      | seed _ hs => exact hns hs
      | slice => simp [sliceOf, DFeat.kind] at hk
      | trans => simp [DFeat.kind] at hk
      | groupby => simp [DFeat.kind] at hk
      | agg => simp [DFeat.kind] at hk
      | aggWhere => simp [DFeat.kind] at hk
      | direct => simp [mkDirect, DFeat.kind] at hk
    · obtain ⟨f, x, w, _, _, _⟩ := hp
      simp [clauseOf, DFeat.kind] at hk

/-- C41. Ignoring the target is refused. -/
theorem C41_target (h : a.target ∈ a.ignoreEntities) (he : ∃ d ∈ ents, d.id = a.target) :
    dfsFeatures L equalScalar ents rels a = .error (.py .assertionError) := by
  unfold dfsFeatures configure
  rw [if_neg (by simpa using he), if_pos (by simpa using h)]

/-! ## Termination -/

/-- C42. On an acyclic schema the synthesis returns or raises; more room for its recursion than one level per entity changes
nothing. -/
theorem C42_terminates (hL : ∀ l, (L.setOrder l).Perm l) (hac : Acyclic rels) :
    dfsFeatures L equalScalar ents rels a ≠ .error .diverges ∧
      ∀ S, configure L equalScalar ents rels a = .ok S → ∀ k m,
        runDfs S (S.ents.length + 1 + k) ⟨[], []⟩ a.target [] m = allFeatures S a.target m := by
  have key : ∀ S, configure L equalScalar ents rels a = .ok S → ∀ m, Returns (allFeatures S a.target m) ∧
      ∀ k, runDfs S (S.ents.length + 1 + k) ⟨[], []⟩ a.target [] m = allFeatures S a.target m := by
    intro S hS m
    have hc := configure_ok hS
    refine runDfs_enough (target := a.target) (M := m) (by rw [hc.lang]; exact hL) (by rw [hc.rels]; exact hac) _ _ _ _ _ ⟨by simp, by simp, by simp⟩ (by simp)
      (.inl rfl) ⟨0, .here, by cases m <;> simp⟩ ?_
    exact Nat.lt_succ_of_le (List.length_filter_le _ _)
  refine ⟨fun h => ?_, fun S hS k m => (key S hS m).2 k⟩
  unfold dfsFeatures at h
  split at h
  · next e he =>
    cases h
    unfold configure at he
    repeat' split at he
    all_goals cases he
  · next S hS =>
    unfold buildFeatures at h
    split at h
    · next e he => cases h; exact (key S hS _).1 he
    · split at h <;> cases h

/-- C42. The features of each entity are built by one visit: at the end every entity has at most one set of features. -/
theorem C42_visits (hL : ∀ l, (L.setOrder l).Perm l) {S : Synth} (hS : configure L equalScalar ents rels a = .ok S) {m : Option Int} {st : DState}
    (h : allFeatures S a.target m = .ok st) : (st.feats.map Prod.fst).Nodup ∧
      ∀ q ∈ st.feats, (∀ f ∈ q.2, f.entity = q.1) ∧ (q.2.map DFeat.uname).Nodup := by
  have hok := allFeatures_ok (by rw [(configure_ok hS).lang]; exact hL) h
  exact ⟨hok.keys, fun q hq => ⟨fun f hf => ((hok.feats q hq).2.2 f hf).2.1, distinct_iff.mp (hok.feats q hq).2.1⟩⟩

/-! ## Stacking -/

theorem varOf_madeBy {f : DFeat} {x : String × String} (h : varOf f = some x) : ∀ q, ¬MadeBy q f := by
  intro q hq
  cases hq <;> simp [varOf] at h

/-- C44. In everything a returned feature uses, an input of a transform feature, and of the condition of an aggregation, is never a
transform feature or an output of one, nor a direct feature of one; it has one output. -/
theorem C44_transform (hL : ∀ l, (L.setOrder l).Perm l) {r : List DFeat} (h : dfsFeatures L equalScalar ents rels a = .ok r) {f : DFeat}
    (hf : f ∈ r) {g : DFeat} (hu : DepUses a.seeds f g) :
    (∀ p, g.kind = .trans p → ∀ b ∈ g.bases, (∀ q, MadeBy q b → q.transform = false) ∧
      (∀ rel d, b.kind = .direct rel → b.bases = [d] → ∀ q, MadeBy q d → q.transform = false)) ∧
    (∀ p t y, g.kind = .groupby p → g.bases = t ++ [y] → ∀ b ∈ t, (∀ q, MadeBy q b → q.transform = false) ∧ b.outputs = 1 ∧
      (∀ rel d, b.kind = .direct rel → b.bases = [d] → ∀ q, MadeBy q d → q.transform = false)) := by
  obtain ⟨S, hc, hr⟩ := dfs_built hL h
  obtain ⟨hp, hns⟩ := part_uses (uses_seeds (fun f => (hc.seeds f).symm) hu) (.inl (hr f hf).1)
  have ok : ∀ {t : List DFeat}, transStackOk t = true → ∀ b ∈ t, (∀ q, MadeBy q b → q.transform = false) ∧
      (∀ rel d, b.kind = .direct rel → b.bases = [d] → ∀ q, MadeBy q d → q.transform = false) := by
    intro t ht b hb
    have := List.all_eq_true.mp ht b hb
    simp only [Bool.and_eq_true, Bool.not_eq_true'] at this
    refine ⟨fun q hq => by rw [madeBy_prim hq] at this; exact this.1, fun rel d hk hbs q hq => ?_⟩
    have h2 := this.2
    rw [hbs] at h2
    have hdir : b.isDirect = true := by unfold DFeat.isDirect; rw [hk]
    simpa [hdir, madeBy_prim hq] using h2
  rcases hp with hp | hp
  · cases hp with
    | identity => simp [identityOf, DFeat.kind]
    | seed _ hs => exact absurd hs hns
    | slice => simp [sliceOf, DFeat.kind]
    | trans e n p t _ _ _ _ _ _ hst => exact ⟨fun _ _ b hb => ok hst b hb, by simp [DFeat.kind]⟩
    | groupby e n p t y _ _ _ _ _ _ _ _ _ _ ho hst =>
      refine ⟨by simp [DFeat.kind], fun q t' y' _ ht' b hb => ?_⟩
      simp only [DFeat.bases] at ht'
      have : t' = t := (List.append_inj ht' (by have := congrArg List.length ht'; simp at this; omega)).1.symm
      subst this
      exact ⟨(ok hst b hb).1, ho b hb, (ok hst b hb).2⟩
    | agg => simp [DFeat.kind]
    | aggWhere => simp [DFeat.kind]
    | direct => simp [mkDirect, DFeat.kind]
  · obtain ⟨f0, x, v, hf0, hx, _⟩ := hp
    refine ⟨fun p _ b hb => ?_, by simp [clauseOf, DFeat.kind]⟩
    simp only [clauseOf, DFeat.bases, List.mem_singleton] at hb
    subst hb
    refine ⟨fun q hq => absurd hq (varOf_madeBy hx q), fun rel d hk hbs q hq => ?_⟩
    obtain ⟨k, e, n, bs, ws⟩ := b
    simp only [DFeat.kind, DFeat.bases] at hk hbs
    subst hk; subst hbs
    exact absurd hq (varOf_madeBy (by simpa [varOf] using hx) q)

/-- C44, the decision of `check_stacking` outright: it accepts exactly the inputs of one output whose primitives allow stacking; when
it would look at a `base_of_exclude` list it raises instead. -/
theorem C44_check_stacking_partial (p : Prim) (t : List DFeat) (ht : ∀ b ∈ t, Proper b) :
    (stackOk p t = .ok true ↔ ∀ b ∈ t, b.outputs ≤ 1 ∧ ∀ q, Behind q b → MayStack p q ∧ q.baseOfExclude = none) ∧
    (stackOk p t = .error (.py .attributeError) ↔ (∃ b ∈ t, ∃ q, Behind q b ∧ q.baseOfExclude ≠ none) ∧
      ∀ b ∈ t, b.outputs ≤ 1 ∧ ∀ q, Behind q b → (p.stackOnSelf = some false → p.cls ∉ q.supers) ∧
        ∀ l, p.stackOnExclude = some l → ∀ c ∈ l, c ∉ q.supers) := by
  have hself : (p.stackOnSelf == some false && t.any fun f => isA f.prim [p.cls]) = true ↔
      ∃ b ∈ t, p.stackOnSelf = some false ∧ p.cls ∈ b.prim.supers := by
    simp only [Bool.and_eq_true, beq_iff_eq, List.any_eq_true, isA_iff, List.mem_singleton, exists_eq_left]
    constructor
    · rintro ⟨h, b, hb, hm⟩; exact ⟨b, hb, h, hm⟩
    · rintro ⟨b, hb, h, hm⟩; exact ⟨h, b, hb, hm⟩
  have hexcl : stackExcluded p t = true ↔
      ∃ b ∈ t, ∃ l, p.stackOnExclude = some l ∧ ∃ c ∈ l, c ∈ b.prim.supers := by
    unfold stackExcluded
    cases p.stackOnExclude with
    | none => simp
    | some l => simp [isA_iff]
  have hb : ∀ b ∈ t, ∀ q, Behind q b ↔ b.prim = q := fun b hb' q => behind_iff (ht b hb')
  unfold stackOk
  constructor
  · constructor
    · intro h
      split at h
      · cases h
      · next h1 =>
        split at h
        · cases h
        · next h2 =>
          split at h
          · cases h
          · next h3 =>
            split at h
            · cases h
            · next h4 =>
              simp only [Except.ok.injEq, List.all_eq_true] at h
              intro b hbt
              refine ⟨Nat.le_of_not_lt fun h' => h3 (List.any_eq_true.mpr ⟨b, hbt, by simpa using h'⟩), fun q hq => ?_⟩
              rw [hb b hbt] at hq
              subst hq
              refine ⟨⟨fun hs hm => h1 (hself.mpr ⟨b, hbt, hs, hm⟩), fun l hl c hc hm => h2 (hexcl.mpr ⟨b, hbt, l, hl, c, hc, hm⟩),
                stackAllowed_iff.mp (h b hbt)⟩, ?_⟩
              cases hx : b.prim.baseOfExclude with
              | none => rfl
              | some l => exact absurd (List.any_eq_true.mpr ⟨b, hbt, by simp [hx]⟩) h4
    · intro h
      rw [if_neg fun h' => ?_, if_neg fun h' => ?_, if_neg fun h' => ?_, if_neg fun h' => ?_]
      · simp only [Except.ok.injEq, List.all_eq_true]
        exact fun b hbt => stackAllowed_iff.mpr ((h b hbt).2 _ ((hb b hbt _).mpr rfl)).1.allow
      · obtain ⟨b, hbt, hm⟩ := List.any_eq_true.mp h'
        rw [((h b hbt).2 _ ((hb b hbt _).mpr rfl)).2] at hm
        cases hm
      · obtain ⟨b, hbt, hm⟩ := List.any_eq_true.mp h'
        have := (h b hbt).1
        simp at hm; omega
      · obtain ⟨b, hbt, l, hl, c, hc, hm⟩ := hexcl.mp h'
        exact ((h b hbt).2 _ ((hb b hbt _).mpr rfl)).1.exclude l hl c hc hm
      · obtain ⟨b, hbt, hs, hm⟩ := hself.mp h'
        exact ((h b hbt).2 _ ((hb b hbt _).mpr rfl)).1.self hs hm
  · constructor
    · intro h
      split at h
      · cases h
      · next h1 =>
        split at h
        · cases h
        · next h2 =>
          split at h
          · cases h
          · next h3 =>
            split at h
            · next h4 =>
              obtain ⟨b, hbt, hm⟩ := List.any_eq_true.mp h4
              refine ⟨⟨b, hbt, b.prim, (hb b hbt _).mpr rfl, fun e => by rw [e] at hm; cases hm⟩, fun b hbt => ?_⟩
              refine ⟨Nat.le_of_not_lt fun h' => h3 (List.any_eq_true.mpr ⟨b, hbt, by simpa using h'⟩), fun q hq => ?_⟩
              rw [hb b hbt] at hq
              subst hq
              exact ⟨fun hs hm => h1 (hself.mpr ⟨b, hbt, hs, hm⟩), fun l hl c hc hm => h2 (hexcl.mpr ⟨b, hbt, l, hl, c, hc, hm⟩)⟩
            · cases h
    · rintro ⟨⟨b0, hb0, q, hq, hx⟩, h⟩
      rw [if_neg fun h' => ?_, if_neg fun h' => ?_, if_neg fun h' => ?_, if_pos ?_]
      · refine List.any_eq_true.mpr ⟨b0, hb0, ?_⟩
        rw [(hb b0 hb0 q).mp hq]
        cases hy : q.baseOfExclude with
        | none => exact absurd hy hx
        | some l => rfl
      · obtain ⟨b, hbt, hm⟩ := List.any_eq_true.mp h'
        have := (h b hbt).1
        simp at hm; omega
      · obtain ⟨b, hbt, l, hl, c, hc, hm⟩ := hexcl.mp h'
        exact ((h b hbt).2 _ ((hb b hbt _).mpr rfl)).2 l hl c hc hm
      · obtain ⟨b, hbt, hs, hm⟩ := hself.mp h'
        exact ((h b hbt).2 _ ((hb b hbt _).mpr rfl)).1 hs hm

/-- C44. In everything a returned feature uses, an input of an aggregation is of one output, and the primitives of both allow
stacking; that of the input has no `base_of_exclude`. -/
theorem C44_aggregation (hL : ∀ l, (L.setOrder l).Perm l) (hs : ∀ f ∈ a.seeds, Proper f) {r : List DFeat}
    (h : dfsFeatures L equalScalar ents rels a = .ok r) {f : DFeat} (hf : f ∈ r) {g : DFeat} (hu : DepUses a.seeds f g) {path : RelPath} {p : Prim}
    (hk : g.kind = .agg path p) : ∀ b ∈ g.bases, b.outputs ≤ 1 ∧ ∀ q, Behind q b → MayStack p q ∧ q.baseOfExclude = none := by
  obtain ⟨S, hc, hr⟩ := dfs_built hL h
  obtain ⟨hp, hns⟩ := part_uses (uses_seeds (fun f => (hc.seeds f).symm) hu) (.inl (hr f hf).1)
  have ok : ∀ {t : List DFeat} {p : Prim}, (∀ b ∈ t, Built S a.target (effectiveDepth S a.maxDepth) b) → stackOk p t = .ok true →
      ∀ b ∈ t, b.outputs ≤ 1 ∧ ∀ q, Behind q b → MayStack p q ∧ q.baseOfExclude = none := by
    intro t p hb ht b hbt
    exact (C44_check_stacking_partial p t fun b hb' => built_proper (fun g hg => hs g ((hc.seeds g).mp hg)) (hb b hb')).1.mp ht b hbt
  rcases hp with hp | hp
  · cases hp with
    | identity => simp [identityOf, DFeat.kind] at hk
    | seed _ hs => exact absurd hs hns
    | slice => simp [sliceOf, DFeat.kind] at hk
    | trans => simp [DFeat.kind] at hk
    | groupby => simp [DFeat.kind] at hk
    | agg e c n path' p' t _ _ _ _ _ _ hb _ _ hst =>
      simp only [DFeat.kind, DKind.agg.injEq] at hk
      rw [← hk.2]
      exact ok hb hst
    | aggWhere e c n path' p' t w f0 x v _ _ _ _ _ _ hb _ _ hst =>
      simp only [DFeat.kind, DKind.agg.injEq] at hk
      rw [← hk.2]
      exact ok hb hst
    | direct => simp [mkDirect, DFeat.kind] at hk
  · obtain ⟨f0, x, v, _, _, _⟩ := hp
    simp [clauseOf, DFeat.kind] at hk

/-! ## Where clauses -/

/-- C45. No chain of dependencies of a returned feature has more than `where_stacking_limit` aggregations with a condition. -/
theorem C45_where_stacking (hL : ∀ l, (L.setOrder l).Perm l) (hs : ∀ f ∈ a.seeds, Proper f)
    (hw : ∀ f ∈ a.seeds, ∀ n, WhereChain f n → (n : Int) ≤ max a.whereLimit 0) {r : List DFeat}
    (h : dfsFeatures L equalScalar ents rels a = .ok r) : ∀ f ∈ r, ∀ n : Nat, WhereChain f n → (n : Int) ≤ max a.whereLimit 0 := by
  obtain ⟨S, hc, hr⟩ := dfs_built hL h
  intro f hf n hn
  have := built_whereChain (fun g hg => hs g ((hc.seeds g).mp hg)) (fun g hg => by rw [hc.limit]; exact hw g ((hc.seeds g).mp hg)) (hr f hf).1 n hn
  rwa [hc.limit] at this

/-- C45. A condition compares a column of the aggregated entity, or of a parent at any distance, with one of the column's
interesting values; the column is not an input of the aggregation, and the primitive is (a kind of) one of the where primitives. -/
theorem C45_condition (hL : ∀ l, (L.setOrder l).Perm l) {r : List DFeat}
    (h : dfsFeatures L equalScalar ents rels a = .ok r) {f : DFeat} (hf : f ∈ r) {g : DFeat} (hu : DepUses a.seeds f g) {path : RelPath} {p : Prim}
    (hk : g.kind = .agg path p) (hw : g.wh ≠ []) :
    ∃ c v x, g.wh = [.mk (.trans (equalScalar v)) c.entity (L.namer.trans (equalScalar v) [c.name]) [c] []] ∧ varOf c = some x ∧
      (∃ d y, ents.find? (fun d => d.id == x.1) = some d ∧ d.vars.find? (fun y => y.id == x.2) = some y ∧ v ∈ y.interesting) ∧
      (∀ b ∈ g.bases, b.entity = c.entity ∧ b.uname ≠ c.uname) ∧ ∃ q ∈ a.wheres, q.cls ∈ p.supers := by
  obtain ⟨S, hc, hr⟩ := dfs_built hL h
  obtain ⟨hp, hns⟩ := part_uses (uses_seeds (fun f => (hc.seeds f).symm) hu) (.inl (hr f hf).1)
  rcases hp with hp | hp
  · cases hp with
    | identity => simp [identityOf, DFeat.kind] at hk
    | seed _ hs => exact absurd hs hns
    | slice => simp [sliceOf, DFeat.kind] at hk
    | trans => simp [DFeat.kind] at hk
    | groupby => simp [DFeat.kind] at hk
    | agg => simp [DFeat.wh] at hw
    | aggWhere e c n path' p' t w f0 x v _ _ _ _ _ _ _ hin _ _ _ hq hf0 hx hv hw' hce hne =>
      simp only [DFeat.kind, DKind.agg.injEq] at hk
      refine ⟨f0, v, x, ?_, hx, ?_, fun b hb => ⟨by rw [hin.entity b hb, hce], hne b hb⟩, ?_⟩
      · simp [DFeat.wh, hw', clauseOf, hc.scalar, hc.lang]
      · unfold interestingOf at hv
        rw [hc.ents] at hv
        split at hv
        · cases hv
        · next d hd =>
          split at hv
          · cases hv
          · next y hy => exact ⟨d, y, hd, hy, hv⟩
      · obtain ⟨q, hq1, hq2⟩ := hq
        exact ⟨q, (hc.wheres q).mp hq1, hk.2 ▸ hq2⟩
    | direct => simp [mkDirect, DFeat.kind] at hk
  · obtain ⟨f0, x, v, _, _, _⟩ := hp
    simp [clauseOf, DFeat.kind] at hk

/-! ## Primitive options -/

/-- C46, one feature: an option permits it as an input exactly if it permits everything the feature is made of; for grouping the
feature must also be discrete. -/
theorem C46_variable_filter (sub : String → String → Bool) (f : DFeat) (o : POption) :
    (variableFilter sub f o false = true ↔ InputPermitted o f) ∧
      (variableFilter sub f o true = true ↔ sub f.vtype "Discrete" = true ∧ GroupPermitted o f) :=
  ⟨variableFilter_iff, variableFilter_groupby_iff⟩

/-- C46, candidate lists: what is kept is permitted and is a reordering of a candidate, the candidate itself unless the primitive is
commutative; and a candidate is kept if the options permit it, or, for a commutative primitive, some reordering of it. -/
theorem C46_filter_matches (sub : String → String → Bool) (os : List POption) (comm : Bool) (ms : List (List DFeat)) :
    (∀ t ∈ filterMatches sub os false comm ms, MatchPermitted InputPermitted os t ∧ ∃ m ∈ ms, t.Perm m ∧ (comm = false → t = m)) ∧
    (∀ m ∈ ms, ∀ t : List DFeat, t.Perm m → (comm = false → t = m) → MatchPermitted InputPermitted os t →
      ∃ u ∈ filterMatches sub os false comm ms, ∃ t' : List DFeat, t'.Perm m ∧ u.map DFeat.uname = t'.map DFeat.uname) := by
  have hv : ∀ t, validMatch sub os false t = true ↔ MatchPermitted InputPermitted os t := fun t =>
    validMatch_iff'.trans (MatchPermitted.congr fun o b => variableFilter_iff)
  constructor
  · intro t ht
    have := mem_filterMatches ht
    exact ⟨(hv t).mp this.1, this.2⟩
  · intro m hm t hp hc ht
    have hvt := (hv t).mpr ht
    have hk : ∃ t', keepMatch sub os false comm m = some t' := by
      cases h : keepMatch sub os false comm m with
      | some t' => exact ⟨t', rfl⟩
      | none =>
        obtain ⟨h1, h2⟩ := keepMatch_none.mp h
        cases comm with
        | false => rw [hc rfl, h1] at hvt; cases hvt
        | true => rw [h2 rfl t hp] at hvt; cases hvt
    obtain ⟨t', ht'⟩ := hk
    have hmem : t' ∈ ms.filterMap (keepMatch sub os false comm) := List.mem_filterMap.mpr ⟨m, hm, ht'⟩
    obtain ⟨u, hu, hke⟩ := dedupOn_key tupleKey hmem
    exact ⟨u, (mem_isort _ _ _).mpr hu, t', (keepMatch_sound ht').2.1, hke⟩

/-- C46, which entities a primitive skips: an option skips an entity whose variables it does not list and which it does not include
or ignores; for grouping the options about grouping count as well. -/
theorem C46_skipped_entities (os : List POption) (e : String) :
    (ignoreEntityFor os e false = true ↔ ∃ o ∈ os, o.includeVars.bind (fun d => d.lookup e) = none ∧
      ¬EntityPermitted o.includeEntities (some o.ignoreEntities) e) ∧
    (ignoreEntityFor os e true = true ↔ ∃ o ∈ os, (o.includeGbVars.bind (fun d => d.lookup e) = none ∧
      ¬EntityPermitted o.includeGbEntities o.ignoreGbEntities e) ∨ (o.includeVars.bind (fun d => d.lookup e) = none ∧
      ¬EntityPermitted o.includeEntities (some o.ignoreEntities) e)) := by
  have h1 : ∀ o : POption, shouldIgnoreEntity o e false = true ↔ o.includeVars.bind (fun d => d.lookup e) = none ∧
      ¬EntityPermitted o.includeEntities (some o.ignoreEntities) e := by
    intro o
    unfold shouldIgnoreEntity varsFor EntityPermitted
    cases o.includeVars.bind (fun d => d.lookup e) with
    | some l => simp
    | none =>
      cases o.includeEntities with
      | none => simp
      | some l => by_cases hl : e ∈ l <;> simp [hl]
  have h2 : ∀ o : POption, ignoreForGroupby o e = true ↔ o.includeGbVars.bind (fun d => d.lookup e) = none ∧
      ¬EntityPermitted o.includeGbEntities o.ignoreGbEntities e := by
    intro o
    unfold ignoreForGroupby varsFor EntityPermitted
    cases o.includeGbVars.bind (fun d => d.lookup e) with
    | some l => simp
    | none =>
      cases o.includeGbEntities with
      | none => cases o.ignoreGbEntities <;> simp
      | some l => by_cases hl : e ∈ l <;> cases o.ignoreGbEntities <;> simp [hl]
  have h3 : ∀ o : POption, shouldIgnoreEntity o e true = true ↔ ignoreForGroupby o e = true ∨ shouldIgnoreEntity o e false = true := by
    intro o
    unfold shouldIgnoreEntity
    by_cases hg : ignoreForGroupby o e = true <;> simp [hg]
  unfold ignoreEntityFor
  simp only [List.any_eq_true]
  constructor
  · exact exists_congr fun o => and_congr_right fun _ => h1 o
  · exact exists_congr fun o => and_congr_right fun _ => by rw [h3, h1, h2]

/-- What C46 promises for a list of inputs of the primitive `p`. -/
def InputsRespect (a : DfsArgs) (p : Prim) (t : List DFeat) : Prop :=
  (∀ os, UserOptions a.options p os → MatchPermitted InputPermitted os t ∧
    ∀ b ∈ t, ∀ g, DepUses [] b g → os.length ∈ [1, t.length] →
      (g.entity ∈ a.ignoreEntities → IncludesEntity os g.entity) ∧
      ∀ vs, (∃ v t, g.kind = .identity v t) → (g.entity, vs) ∈ a.ignoreVariables → g.name ∈ vs → IncludesEntity os g.entity) ∧
  (NoOptions a.options p → ∀ b ∈ t, ∀ g, DepUses [] b g → g.entity ∉ a.ignoreEntities ∧
    ∀ v t vs, g.kind = .identity v t → a.ignoreVariables.lookup g.entity = some vs → g.name ∉ vs)

theorem inputsRespect_of {p : Prim} {sub : String → String → Bool} {t : List DFeat}
    (h : validMatch sub (optionsFor a.options a.ignoreEntities a.ignoreVariables p) false t = true) : InputsRespect a p t := by
  have hv : MatchPermitted InputPermitted (optionsFor a.options a.ignoreEntities a.ignoreVariables p) t :=
    validMatch_iff'.trans (MatchPermitted.congr fun o b => variableFilter_iff) |>.mp h
  unfold optionsFor at hv
  constructor
  · intro os hu
    rw [userOptions_some.mpr hu] at hv
    simp only [reconcile] at hv
    refine ⟨hv.of_map fun o ho b hb g hg => (reconciled_permitted ho (hb g hg)).1, fun b hb g hg hlen => ?_⟩
    obtain ⟨o, ho, hP⟩ : ∃ o ∈ os, ∀ g, DepUses [] b g → Permitted o.includeVars (some (addGlobalVars (includedEntities os) a.ignoreVariables o.ignoreVars)) o.includeEntities
        (some (o.ignoreEntities ++ a.ignoreEntities.filter fun e => !(includedEntities os).contains e)) g := by
      match os, hu, hv, hlen with
      | [], _, hv, _ => exact absurd rfl hv.1
      | [o], _, hv, _ => exact ⟨o, by simp, hv.2.1 _ rfl b hb⟩
      | o1 :: o2 :: os', _, hv, hlen =>
        obtain ⟨i, hi, rfl⟩ := List.getElem_of_mem hb
        have hi' : i < (o1 :: o2 :: os').length := by simp at hlen; simp; omega
        refine ⟨(o1 :: o2 :: os')[i], List.getElem_mem hi', ?_⟩
        exact hv.2.2 (by simp) i _ _ (by rw [List.getElem?_map, List.getElem?_eq_getElem hi']; rfl) (List.getElem?_eq_getElem hi)
    exact (reconciled_permitted ho (hP g hg)).2
  · intro hn b hb g hg
    rw [userOptions_none.mpr hn] at hv
    obtain ⟨h1, h2, h3⟩ := hv.2.1 _ rfl b hb g hg
    have key : EntityPermitted none (some a.ignoreEntities) g.entity := by
      by_cases hk : ∃ v t, g.kind = .identity v t
      · exact (h2 hk (by simp)).2
      · exact h3 fun v t e => hk ⟨v, t, e⟩
    refine ⟨key.2 _ rfl, fun v t vs hk hl => ?_⟩
    exact (h2 ⟨v, t, hk⟩ (by simp)).1 vs (by simpa using hl)

/-- C46. In everything a returned feature is made of (seed features and conditions aside), the inputs of every primitive respect the
options the user gave for it, at every depth, and what is ignored globally is used only if the options include its entity; a
group-by feature groups by a discrete feature the options permit. -/
theorem C46_respected_partial (hL : ∀ l, (L.setOrder l).Perm l) {r : List DFeat} (h : dfsFeatures L equalScalar ents rels a = .ok r) {f : DFeat}
    (hf : f ∈ r) {g : DFeat} (hu : InputUses a.seeds f g) :
    (∀ p, g.kind = .trans p → p ∈ a.trans ∧ InputsRespect a p g.bases) ∧
    (∀ path p, g.kind = .agg path p → p ∈ a.aggs ∧ InputsRespect a p g.bases) ∧
    (∀ p, g.kind = .groupby p → p ∈ a.groupbys ∧ ∃ t y, g.bases = t ++ [y] ∧ InputsRespect a p t ∧
      ∀ o, UserOptions a.options p [o] → L.sub y.vtype "Discrete" = true ∧ GroupPermitted o y) := by
  obtain ⟨S, hc, hr⟩ := dfs_built hL h
  obtain ⟨hp, hns⟩ := inputUses_built (inputUses_seeds (fun f => (hc.seeds f).symm) hu) (hr f hf).1
  cases hp with
  | identity => simp [identityOf, DFeat.kind]
  | seed _ hs => exact absurd hs hns
  | slice => simp [sliceOf, DFeat.kind]
  | trans e n p t hp _ _ _ hin =>
    refine ⟨fun q hq => ?_, by simp [DFeat.kind], by simp [DFeat.kind]⟩
    simp only [DFeat.kind, DKind.trans.injEq] at hq
    subst hq
    exact ⟨(hc.trans _).mp hp, inputsRespect_of a (by have := hin.valid; rw [hc.opts] at this; exact this)⟩
  | groupby e n p t y hp _ _ _ _ _ _ _ hv1 hv2 =>
    refine ⟨by simp [DFeat.kind], by simp [DFeat.kind], fun q hq => ?_⟩
    simp only [DFeat.kind, DKind.groupby.injEq] at hq
    subst hq
    refine ⟨(hc.groupbys _).mp hp, t, y, rfl, inputsRespect_of a (by rw [hc.opts] at hv1; exact hv1), fun o ho => ?_⟩
    rw [hc.opts, hc.lang] at hv2
    unfold optionsFor at hv2
    rw [userOptions_some.mpr ho] at hv2
    have := (validMatch_iff'.mp hv2).2.1 _ rfl y (by simp)
    exact variableFilter_groupby_iff.mp this
  | agg e c n path p t hp _ _ _ _ _ _ hin =>
    refine ⟨by simp [DFeat.kind], fun _ q hq => ?_, by simp [DFeat.kind]⟩
    simp only [DFeat.kind, DKind.agg.injEq] at hq
    rw [← hq.2]
    exact ⟨(hc.aggs _).mp hp, inputsRespect_of a (by have := hin.valid; rw [hc.opts] at this; exact this)⟩
  | aggWhere e c n path p t w f0 x v hp _ _ _ _ _ _ hin =>
    refine ⟨by simp [DFeat.kind], fun _ q hq => ?_, by simp [DFeat.kind]⟩
    simp only [DFeat.kind, DKind.agg.injEq] at hq
    rw [← hq.2]
    exact ⟨(hc.aggs _).mp hp, inputsRespect_of a (by have := hin.valid; rw [hc.opts] at this; exact this)⟩
  | direct => simp [mkDirect, DFeat.kind]

end
end FT
