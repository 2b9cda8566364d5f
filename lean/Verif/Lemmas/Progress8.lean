import Verif.Lemmas.Progress7
/-!
# When the reports of a call add up to the rows
-/
namespace FT
open Watched Spec

theorem identityVar_eq {g : Feat} {n : String} (h : identityVar? g = some n) : g.kind = .identity n := by
  unfold identityVar? at h
  split at h
  · rename_i v hk; cases h; exact hk
  · cases h

theorem nodeFresh_plan {env : Env} {targets : List Feat} (N : NewColumns env targets) (p : List Edge) :
    NodeFresh env (lookupFeature (featuresByName targets)) (planAt (buildTrie targets (Trie.new [])) p) := by
  have hs := buildTrie_spec targets (Trie.new []) p
  rw [hiddenBy_new] at hs
  obtain ⟨hfull, hnot, hneed⟩ := hs
  have hnd : (planAt (buildTrie targets (Trie.new [])) p).full.Nodup ∧ (planAt (buildTrie targets (Trie.new [])) p).notFull.Nodup :=
    plan_nodup targets Given.none p
  refine ⟨?_, ?_⟩
  · intro fs gs h1 h2
    have hb1 : ∀ n ∈ (planAt (buildTrie targets (Trie.new [])) p).full, ∃ g, NeededBy targets g ∧ n = g.uniqueName := by
      intro n hn
      obtain ⟨g, hg, e⟩ := (hfull n).mp hn
      exact ⟨g, hg.neededBy, e⟩
    have hb2 : ∀ n ∈ (planAt (buildTrie targets (Trie.new [])) p).notFull, ∃ g, NeededBy targets g ∧ n = g.uniqueName := by
      intro n hn
      obtain ⟨⟨g, full, hg, e⟩, _⟩ := (hnot n).mp hn
      exact ⟨g, hg.neededBy, e⟩
    obtain ⟨fs', e1, m1, _⟩ := findFeats_ok N.names _ hb1
    obtain ⟨gs', e2, m2, _⟩ := findFeats_ok N.names _ hb2
    have : fs' = fs := by
      have := e1.symm.trans h1
      injection this
    subst this
    have : gs' = gs := by
      have := e2.symm.trans h2
      injection this
    subst this
    have n1 := findFeats_needed N.names _ fs' hb1 h1
    have n2 := findFeats_needed N.names _ gs' hb2 h2
    have hpl : ∀ f ∈ fs' ++ gs', ∃ full, Planned targets noHidden p f full := by
      intro f hf
      rcases List.mem_append.mp hf with hf | hf
      · have : f.uniqueName ∈ fs'.map Feat.uniqueName := List.mem_map_of_mem hf
        rw [m1] at this
        obtain ⟨g, hg, e⟩ := (hfull _).mp this
        rw [N.names f g (n1 f hf) hg.neededBy e]
        exact ⟨_, hg⟩
      · have : f.uniqueName ∈ gs'.map Feat.uniqueName := List.mem_map_of_mem hf
        rw [m2] at this
        obtain ⟨⟨g, full, hg, e⟩, _⟩ := (hnot _).mp this
        rw [N.names f g (n2 f hf) hg.neededBy e]
        exact ⟨_, hg⟩
    refine ⟨?_, ?_⟩
    · have huniq : ((fs' ++ gs').map Feat.uniqueName).Nodup := by
        rw [List.map_append, m1, m2, List.nodup_append]
        refine ⟨hnd.1, hnd.2, ?_⟩
        intro a ha b hb hab
        subst hab
        exact ((hnot a).mp hb).2 ha
      have hpw : (fs' ++ gs').Pairwise fun f g => f.uniqueName ≠ g.uniqueName := List.pairwise_map.mp huniq
      refine (List.Pairwise.and_mem.mp hpw).imp ?_
      rintro f g ⟨hf, hg, hne⟩ n hn
      obtain ⟨b, hb⟩ := hpl f hf
      obtain ⟨b', hb'⟩ := hpl g hg
      exact N.disjoint p f g b b' hb hb' (fun e => hne (by rw [e])) n hn
    · intro f hf ha
      obtain ⟨b, hb⟩ := hpl f hf
      obtain ⟨n, hn, hk, hid, hl⟩ := N.aggs p f b hb ha
      refine ⟨n, hn, hk, ?_, hl⟩
      intro g hg hv
      obtain ⟨b', hb'⟩ := hpl g hg
      exact hid g b' hb' (identityVar_eq hv)
  · intro hn
    rw [List.eq_nil_iff_forall_not_mem]
    intro n hm
    obtain ⟨g, hg, _⟩ := (hfull n).mp hm
    rw [hneed.mpr ⟨p, g, hg, List.prefix_refl _, List.prefix_append _ _⟩] at hn
    cases hn

theorem noPre_new : NoPre (Trie.new none) := fun p => valueAt_new none p

theorem le_sum_of_mem' : ∀ {l : List Nat} {n : Nat}, n ∈ l → n ≤ l.sum
  | m :: l, n, h => by
    rw [List.sum_cons]
    rcases List.mem_cons.mp h with h | h
    · omega
    · have := le_sum_of_mem' h; omega

theorem numFeatures_pos {targets : List Feat} (hne : targets ≠ []) : numFeatures (buildTrie targets (Trie.new [])) ≠ 0 := by
  obtain ⟨f, l, rfl⟩ := List.exists_cons_of_ne_nil hne
  have hs := buildTrie_spec (f :: l) (Trie.new []) []
  rw [hiddenBy_new] at hs
  obtain ⟨hfull, hnot, _⟩ := hs
  have hp : Planned (f :: l) noHidden [] f f.usesFull := .target (by simp) (by simp [noHidden])
  have hmem : ([], planAt (buildTrie (f :: l) (Trie.new [])) []) ∈ (buildTrie (f :: l) (Trie.new [])).toList := by
    rw [Trie.mem_toList _ _ _ (WF_buildTrie _ _)]; rfl
  have hpos : 0 < (planAt (buildTrie (f :: l) (Trie.new [])) []).full.length + (planAt (buildTrie (f :: l) (Trie.new [])) []).notFull.length := by
    by_cases h : f.uniqueName ∈ (planAt (buildTrie (f :: l) (Trie.new [])) []).full
    · have := List.length_pos_of_mem h; omega
    · have := List.length_pos_of_mem ((hnot f.uniqueName).mpr ⟨⟨f, _, hp, rfl⟩, h⟩); omega
  unfold numFeatures
  have := le_sum_of_mem' (List.mem_map_of_mem (f := fun pv : List Edge × NodeVal => pv.2.full.length + pv.2.notFull.length) hmem)
  dsimp only at this
  omega

theorem runW_full (merged : List Feat → Nat) (hm : ∀ fs, merged fs = fs.length) (env : Env) (targets : List Feat)
    (N : NewColumns env targets) (hne : targets ≠ []) (e : String) (ids : List Val) :
    (runW merged env targets (Trie.new []) (Trie.new none) e ids).Full 1 := by
  unfold runW
  split
  · intro a h; cases h
  · refine full_quiet_bind fun ent _ => ?_
    dsimp only
    refine full_bind_quiet ?_
    refine (nodeW_full ⟨numFeatures (buildTrie targets (Trie.new [])), merged⟩ hm env _ (buildTrie targets (Trie.new [])) _ e ent.index ids none
      noPre_new ?_).cast ?_
    · rintro ⟨p, v⟩ hpv
      rw [Trie.mem_toList _ _ _ (WF_buildTrie _ _)] at hpv
      have : planAt (buildTrie targets (Trie.new [])) p = v := by
        unfold planAt
        rw [Trie.nodeAt_value, hpv]; rfl
      rw [← this]
      exact nodeFresh_plan N p
    · show ((numFeatures (buildTrie targets (Trie.new [])) : Nat) : Rat) / (numFeatures (buildTrie targets (Trie.new [])) : Nat) = 1
      rw [Rat.div_def]
      refine Rat.mul_inv_cancel _ ?_
      have := numFeatures_pos hne
      intro h
      exact this (by exact_mod_cast h)

theorem concatAllW_full {α β : Type} (g : α → Watched (List β)) (b : α → Nat) : ∀ (l : List α),
    (∀ a ∈ l, (g a).Full (b a)) → (concatAllW g l).Full ((l.map b).sum : Nat)
  | [], _ => (full_quiet _).cast rfl
  | a :: l, h => by
    unfold concatAllW
    rw [List.map_cons, List.sum_cons, natCast_add']
    refine full_bind (h a (by simp)) fun x _ => ?_
    exact full_bind_quiet (concatAllW_full g b l fun a ha => h a (by simp [ha]))

theorem newColumns_at {c : Call} (N : NewColumns c.env c.targets) (t : Int) (w : Option Window) :
    NewColumns (c.at t w) c.targets := ⟨N.names, N.disjoint, N.aggs⟩

section
variable (merged : List Feat → Nat) (hm : ∀ fs, merged fs = fs.length) (c : Call) (N : NewColumns c.env c.targets)
  (hne : c.targets ≠ [])
include hm N hne

theorem groupMatrixW_full (t : Int) (grp : List TRow) : (groupMatrixW merged c t grp).Full grp.length := by
  unfold groupMatrixW
  dsimp only
  refine full_bind_quiet ((full_scale _ (runW_full merged hm _ c.targets (newColumns_at N t c.env.window) hne _ _)).cast ?_)
  grind

theorem calculateExactW_full (size : Option Nat) (rows : List TRow) :
    (calculateExactW merged c size rows).Full rows.length := by
  unfold calculateExactW
  dsimp only
  split
  · intro a h; cases h
  · rw [← keyedCount_groupByKey TRow.time rows]
    refine concatAllW_full _ (fun g : Int × List TRow => g.2.length) _ fun g _ => ?_
    refine full_quiet_bind fun ps hps => ?_
    rw [← keyedCount_groupByKey TRow.time g.2, ← keyedCount_pieces hps]
    exact concatAllW_full _ (fun p : Int × List TRow => p.2.length) _ fun p _ => groupMatrixW_full merged hm c N hne _ _

theorem singleMatrixW_full (t : Int) (ids : List Val) : (singleMatrixW merged c t ids).Full ids.length := by
  unfold singleMatrixW
  refine full_bind_quiet ((full_scale _ (runW_full merged hm _ c.targets (newColumns_at N t c.env.window) hne _ _)).cast ?_)
  grind

end

theorem concatAllW_tsum {α β : Type} (g : α → Watched (List β)) : ∀ (l : List α) (out : List β),
    (∀ a ∈ l, ∀ x, (g a).out = .ok x → tsum (g a).ticks = x.length) →
    (concatAllW g l).out = .ok out → tsum (concatAllW g l).ticks = out.length
  | [], out, _, h => by cases h; rfl
  | a :: l, out, hg, h => by
    unfold concatAllW at h ⊢
    cases ha : (g a).out with
    | error e => simp only [Watched.bind, ha] at h; cases h
    | ok x =>
      cases hl : (concatAllW g l).out with
      | error e => simp only [Watched.bind, ha, hl] at h; cases h
      | ok y =>
        simp only [Watched.bind, ha, hl, Watched.quiet, Except.ok.injEq] at h
        subst h
        have h1 := hg a (by simp) x ha
        have h2 := concatAllW_tsum g l y (fun a ha => hg a (by simp [ha])) hl
        rw [List.length_append, natCast_add']
        simp only [Watched.bind, ha, hl, Watched.quiet, List.append_nil, tsum_append, h1, h2]

theorem gatherW_full {order : Nat → List Nat} {results : List (Except PyErr (List MRow))} {out : List MRow}
    (h : (gatherW order results).out = .ok out) : tsum (gatherW order results).ticks = out.length := by
  unfold gatherW at h ⊢
  split at h
  · cases h
  · rename_i hne
    rw [if_neg hne]
    refine concatAllW_tsum _ _ _ ?_ h
    intro r _ x hx
    cases r with
    | error e => cases hx
    | ok rows =>
      simp only [Except.ok.injEq] at hx
      subst hx
      simp only [tsum]
      grind


theorem concatAllW_rows {α β : Type} (g : α → Watched (List β)) (b : α → Nat) : ∀ (l : List α) (out : List β),
    (∀ a ∈ l, ∀ x, (g a).out = .ok x → x.length = b a) → (concatAllW g l).out = .ok out → out.length = (l.map b).sum
  | [], out, _, h => by cases h; rfl
  | a :: l, out, hg, h => by
    unfold concatAllW at h
    cases ha : (g a).out with
    | error e => simp only [Watched.bind, ha] at h; cases h
    | ok x =>
      cases hl : (concatAllW g l).out with
      | error e => simp only [Watched.bind, ha, hl] at h; cases h
      | ok y =>
        simp only [Watched.bind, ha, hl, Watched.quiet, Except.ok.injEq] at h
        subst h
        rw [List.length_append, hg a (by simp) x ha, concatAllW_rows g b l y (fun a ha => hg a (by simp [ha])) hl]
        simp

/-- The reports of a parallel run that succeeds count the rows of the chunks. -/
theorem gatherW_counts (order : Nat → List Nat) (ho : ∀ n, (order n).Perm (List.range n)) {α : Type} (chunks : List α)
    (work : α → Except PyErr (List MRow)) (b : α → Nat) (hw : ∀ ch ∈ chunks, ∀ rows, work ch = .ok rows → rows.length = b ch) :
    (gatherW order (chunks.map work)).Full ((chunks.map b).sum : Nat) := by
  intro out h
  rw [gatherW_full h]
  congr 1
  unfold gatherW at h
  split at h
  · cases h
  · have hp : ((order (chunks.map work).length).filterMap fun i => (chunks.map work)[i]?).Perm (chunks.map work) := by
      have := (ho (chunks.map work).length).filterMap fun i => (chunks.map work)[i]?
      rwa [filterMap_range_getElem] at this
    have hall : ∀ r ∈ chunks.map work, ∃ rows, r = .ok rows := by
      intro r hr
      have hr' := hp.mem_iff.mpr hr
      revert h hr'
      generalize ((order (chunks.map work).length).filterMap fun i => (chunks.map work)[i]?) = l
      intro h hr'
      induction l generalizing out with
      | nil => cases hr'
      | cons x l ih =>
        unfold concatAllW at h
        cases x with
        | error e => simp only [Watched.bind] at h; cases h
        | ok rows =>
          simp only [Watched.bind] at h
          rcases List.mem_cons.mp hr' with e | hr'
          · exact ⟨rows, e⟩
          · split at h
            · rename_i e hl; cases h
            · rename_i y hl
              exact ih y hl hr'
    rw [concatAllW_rows _ resultRows _ out (fun r _ x hx => by
      cases r with
      | error e => cases hx
      | ok rows => cases hx; rfl) h, (hp.map resultRows).sum_nat, List.map_map]
    congr 1
    refine List.map_congr_left fun ch hch => ?_
    obtain ⟨rows, hr⟩ := hall _ (List.mem_map_of_mem hch)
    simp only [Function.comp, hr, resultRows]
    exact hw ch hch rows hr

theorem executeW_exact_full (merged : List Feat → Nat) (hm : ∀ fs, merged fs = fs.length) (exec : Exec)
    (hx : Spec.Fair exec) (size : Option Nat) (total : Nat) (c : Call) (hN : exec = .serial → NewColumns c.env c.targets)
    (hne : c.targets ≠ []) (rows : List TRow) :
    (executeW exec size total TRow.time rows (calculateExactW merged c)).Full rows.length := by
  cases exec with
  | serial => exact calculateExactW_full merged hm c (hN rfl) hne _ _
  | parallel workers order =>
    unfold executeW
    refine full_quiet_bind fun k _ => ?_
    refine full_quiet_bind fun chunks hc => ?_
    refine (gatherW_counts order hx.2 chunks (fun ch => (calculateExactW merged c none ch.2).out) (fun ch => ch.2.length) ?_).cast ?_
    · intro ch _ out ho
      rw [calculateExactW_out] at ho
      exact calculateExact_length ho
    · rw [← keyedCount_groupByKey TRow.time rows, ← keyedCount_chunkGroups hc]
      rfl

theorem executeSingleW_full (merged : List Feat → Nat) (hm : ∀ fs, merged fs = fs.length) (exec : Exec)
    (hx : Spec.Fair exec) (size : Option Nat) (c : Call) (hN : exec = .serial → NewColumns c.env c.targets)
    (hne : c.targets ≠ []) (t : Int) (ids : List Val) :
    (executeSingleW merged exec size c t ids).Full ids.length := by
  cases exec with
  | serial => exact singleMatrixW_full merged hm c (hN rfl) hne _ _
  | parallel workers order =>
    unfold executeSingleW
    refine full_quiet_bind fun k _ => ?_
    refine full_quiet_bind fun chunks hc => ?_
    refine (gatherW_counts order hx.2 chunks (fun ch => (singleMatrixW merged c ch.1 ch.2).out) (fun ch => ch.2.length) ?_).cast ?_
    · intro ch _ out ho
      rw [singleMatrixW_out] at ho
      exact singleMatrix_length ho
    · unfold chunkTuple at hc
      cases hr : chunkRows k ids with
      | error e => rw [hr] at hc; cases hc
      | ok cs =>
        rw [hr] at hc
        cases hc
        have hf := congrArg List.length (flatten_chunkRows hr)
        rw [List.length_flatten] at hf
        rw [← hf, List.map_map]
        rfl

theorem reportsFrom_updates (total : Rat) : ∀ (xs : List Rat) (n : Rat),
    ((reportsFrom total n xs).map Report.update).sum = tsum xs / total * 100
  | [], n => by simp only [reportsFrom, List.map_nil, List.sum_nil, tsum, Rat.div_def]; grind
  | x :: xs, n => by
    simp only [reportsFrom, List.map_cons, List.sum_cons, reportsFrom_updates total xs, tsum, Rat.div_def]; grind

theorem share_percent (k rows : Nat) (hr : rows ≠ 0) : (k : Rat) / ((rows : Rat) / calculationShare) * 100 = 95 * ((k : Rat) / rows) := by
  have h0 : (rows : Rat) ≠ 0 := by exact_mod_cast hr
  rw [calculationShare]
  grind

theorem withBar_counts {α β : Type} (rows k : Nat) (m : Watched α) (rest : α → Except PyErr β) (hm : m.Full k) {b : β}
    (h : (withBar rows m rest).2 = .ok b) (hr : rows ≠ 0) : CountsRows ((k : Rat) / rows) (withBar rows m rest).1 := by
  obtain ⟨a, ha, hb⟩ := withBar_ok h
  have ht := hm a ha
  have h0 : (rows : Rat) ≠ 0 := by exact_mod_cast hr
  unfold withBar
  dsimp only
  rw [ha]
  dsimp only
  rw [hb]
  dsimp only
  refine ⟨_, _, rfl, ?_, ?_⟩
  · rw [reportsFrom_updates, ht, share_percent k rows hr]
  · rw [foldl_tsum, ht, ← share_percent k rows hr]
    have hc : (rows : Rat) / calculationShare ≠ 0 := by
      rw [barTotal]
      grind
    generalize (rows : Rat) / calculationShare = T at hc
    dsimp only
    grind


theorem filter_time_length : ∀ (cut : List CutRow), (cut.filter fun r => r.time.isSome).length = (timed cut).length
  | [] => rfl
  | r :: cut => by
    have := filter_time_length cut
    unfold timed at this ⊢
    cases h : r.time with
    | none => simp [h, this]
    | some t => simp [h, this]

theorem cfmTableW_counts (merged : List Feat → Nat) (hm : ∀ fs, merged fs = fs.length) (a : CfmArgs) (hx : Spec.Fair a.exec)
    (ha : a.approximate = none) (hN : a.exec = .serial → NewColumns a.env a.features) (hne : a.features ≠ [])
    (passCols : List String) (cut : List CutRow) {m : Matrix} (h : (cfmTableW merged a passCols cut).2 = .ok m) :
    CountsRows (shareWithTime cut) (cfmTableW merged a passCols cut).1 := by
  unfold cfmTableW at h ⊢
  dsimp only at h ⊢
  by_cases hn : noDup (cut.map fun r => (r.id, r.time)) = true
  · rw [if_pos hn, ha] at h ⊢
    dsimp only at h ⊢
    cases hs : chunkSizeOf a.chunkSize cut.length with
    | error e => rw [hs] at h; cases h
    | ok size =>
      rw [hs] at h
      dsimp only at h ⊢
      have hr : cut.length ≠ 0 := by
        intro h0
        obtain ⟨x, hx', _⟩ := withBar_ok h
        rw [executeW_out _ _ _ _ _ _ _ (calculateExactW_out merged _),
          timed_nil_of_length h0] at hx'
        obtain ⟨e, he⟩ := execute_nil a.exec size cut.length TRow.time (calculateExact ⟨a.env, a.features, passCols, a.idLe⟩) (by intro s; exact ⟨_, rfl⟩)
        rw [he] at hx'
        cases hx'
      unfold shareWithTime
      rw [filter_time_length]
      exact withBar_counts cut.length _ _ _ (executeW_exact_full merged hm a.exec hx size cut.length ⟨a.env, a.features, passCols, a.idLe⟩ hN hne (timed cut)) h hr
  · rw [if_neg hn] at h; cases h

theorem cfmSingleW_counts (merged : List Feat → Nat) (hm : ∀ fs, merged fs = fs.length) (a : CfmArgs) (hx : Spec.Fair a.exec)
    (ha : a.approximate = none) (hN : a.exec = .serial → NewColumns a.env a.features) (hne : a.features ≠ [])
    (t : Int) (ids : List Val) {m : Matrix} (h : (cfmSingleW merged a t ids).2 = .ok m) :
    CountsRows 1 (cfmSingleW merged a t ids).1 := by
  unfold cfmSingleW at h ⊢
  dsimp only at h ⊢
  rw [ha] at h ⊢
  dsimp only at h ⊢
  cases hs : chunkSizeOf a.chunkSize ids.length with
  | error e => rw [hs] at h; cases h
  | ok size =>
    rw [hs] at h
    dsimp only at h ⊢
    have hr : ids.length ≠ 0 := by
      intro h0
      obtain ⟨x, hx', _⟩ := withBar_ok h
      rw [executeSingleW_out, List.length_eq_zero_iff.mp h0] at hx'
      obtain ⟨e, he⟩ := executeSingle_nil a.exec size ⟨a.env, a.features, [], a.idLe⟩ t
      rw [he] at hx'
      cases hx'
    have := withBar_counts ids.length _ _ _ (executeSingleW_full merged hm a.exec hx size ⟨a.env, a.features, [], a.idLe⟩ hN hne t ids) h hr
    rwa [Rat.div_def, Rat.mul_inv_cancel _ (by exact_mod_cast hr)] at this

theorem watched_counts (merged : List Feat → Nat) (hm : ∀ fs, merged fs = fs.length) (a : CfmArgs) (hx : Spec.Fair a.exec)
    (ha : a.approximate = none) (hN : a.exec = .serial → NewColumns a.env a.features) {m : Matrix}
    (h : (watchedFeatureMatrix merged a).2 = .ok m) :
    (∀ passCols cut, a.cutoff = .table passCols cut → CountsRows (shareWithTime cut) (watchedFeatureMatrix merged a).1) ∧
    ((∀ passCols cut, a.cutoff ≠ .table passCols cut) → CountsRows 1 (watchedFeatureMatrix merged a).1) := by
  have go : ∀ t, a.features ≠ [] → (watchedFeatureMatrix.go merged a t).2 = .ok m → CountsRows 1 (watchedFeatureMatrix.go merged a t).1 := by
    intro t hne h
    unfold watchedFeatureMatrix.go at h ⊢
    cases hi : a.instanceIds with
    | some ids => rw [hi] at h; exact cfmSingleW_counts merged hm a hx ha hN hne t ids h
    | none =>
      rw [hi] at h
      dsimp only at h ⊢
      cases hd : defaultIds a t with
      | error e => rw [hd] at h; cases h
      | ok ids => rw [hd] at h; exact cfmSingleW_counts merged hm a hx ha hN hne t ids h
  unfold watchedFeatureMatrix at h ⊢
  by_cases he : a.features.isEmpty = true
  · rw [if_pos he] at h; cases h
  · rw [if_neg he] at h ⊢
    have hne : a.features ≠ [] := by simpa using he
    cases hc : a.cutoff with
    | table p c =>
      rw [hc] at h
      refine ⟨?_, fun h => absurd rfl (h p c)⟩
      intro p' c' e
      cases e
      exact cfmTableW_counts merged hm a hx ha hN hne p c h
    | single t => rw [hc] at h; exact ⟨fun _ _ e => (by cases e), fun _ => go t hne h⟩
    | missing => rw [hc] at h; exact ⟨fun _ _ e => (by cases e), fun _ => go a.now hne h⟩

end FT
