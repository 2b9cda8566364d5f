import Verif.Lemmas.HandlersDirect
/-! # Aggregation features -/
namespace FT
open Spec

/-- The condition of an aggregation, for an id of the child. -/
def condHolds (M : Feat → Val → List Val) (wh : List Feat) (x : Val) : Bool := wh.all fun c => one (M c) x = .bool true

theorem condHolds_iff (M : Feat → Val → List Val) (wh : List Feat) (x : Val) :
    condHolds M wh x = true ↔ ∀ c ∈ wh.map M, one c x = .bool true := by
  simp [condHolds]

theorem whereFilter_ok (M : Feat → Val → List Val) (idx : String) (f : Feat) (base : Table) (hlen : f.wh.length ≤ 1)
    (hcols : ∀ c ∈ f.wh, c.name ∈ base.cols ∧ ∀ r ∈ base.rows, r c.name = one (M c) (r idx)) :
    whereFilter f base = .ok { base with rows := base.rows.filter fun r => condHolds M f.wh (r idx) } := by
  unfold whereFilter
  match hw : f.wh with
  | [] =>
    have : (base.rows.filter fun r => condHolds M [] (r idx)) = base.rows := by
      rw [List.filter_eq_self]; intro r _; rfl
    rw [this]
  | [c] =>
    rw [hw] at hcols
    have hc := hcols c (by simp)
    have hcc : base.cols.contains c.name = true := by simpa using hc.1
    simp only [hcc, if_true]
    split
    · rename_i hemp
      have : base.rows = [] := by simpa using hemp
      cases base; simp_all
    · congr 2
      apply List.filter_congr
      intro r hr
      simp [condHolds, hc.2 r hr]
  | _ :: _ :: _ => rw [hw] at hlen; simp at hlen

theorem filter_tt {α : Type} (l : List α) : l.filter (fun _ => true) = l := by
  rw [List.filter_eq_self]; intro r _; rfl

theorem flatMap_congr' {α β : Type} {f g : α → List β} : ∀ {l : List α}, (∀ a ∈ l, f a = g a) → l.flatMap f = l.flatMap g
  | [], _ => rfl
  | a :: l, h => by
    rw [List.flatMap_cons, List.flatMap_cons, h a (by simp), flatMap_congr' fun b hb => h b (by simp [hb])]

theorem map_pyTail {β : Type} (n : Int) (v : Row → β) (l : List Row) : (pyTail n l).map v = pyTail n (l.map v) := by
  unfold pyTail
  split <;> simp [List.map_drop]

theorem pyTail_subset (n : Int) (l : List Row) : ∀ r ∈ pyTail n l, r ∈ l := by
  intro r hr
  unfold pyTail at hr
  split at hr <;> exact List.mem_of_mem_drop hr

/-- The rows an aggregation sees for one id are those of the specification. -/
theorem aggGroup_ok (env : Env) (M : Feat → Val → List Val) (idx ce gv : String) (path : List Relationship) (prev : Option (Dict Int)) (wh : List Feat)
    (rows : List Row) (J : List Val) (id : Val)
    (hids : rows.map (fun r => r idx) = J) (hJ : J.Sublist ((worldOf env).ids ce)) (hV : ((worldOf env).ids ce).Nodup)
    (hgv : ∀ r ∈ rows, r gv = (worldOf env).up path.reverse (r idx))
    (hti : ∀ ti, (worldOf env).timeIndex ce = some ti → ∀ r ∈ rows, r ti = (worldOf env).cell ce (r idx) ti)
    (hcov : ∀ x ∈ (worldOf env).ids ce, (worldOf env).up path.reverse x = id → x ∈ J) :
    let grp := aggGroup gv prev (prevTime env ((worldOf env).timeIndex ce) prev (rows.filter fun r => condHolds M wh (r idx))) id
    (∀ r ∈ grp, r ∈ rows) ∧
    grp.map (fun r => r idx) = aggMembers (worldOf env) path prev (wh.map M) ce id := by
  intro grp
  let w := worldOf env
  have hbelow : ∀ (Q : Row → Bool) (Q' : Val → Bool), (∀ r ∈ rows, Q r = Q' (r idx)) →
      (rows.filter fun r => Q r && (condHolds M wh (r idx) && decide (r gv = id))).map (fun r => r idx) =
      ((w.ids ce).filter fun x => w.up path.reverse x = id ∧ ∀ c ∈ wh.map M, one c x = .bool true).filter Q' := by
    intro Q Q' hQ
    rw [filter_ids idx _ (fun x => Q' x && (condHolds M wh x && decide (w.up path.reverse x = id))) _ (fun x => x) rows
      (fun r hr => by simp only [hgv r hr, hQ r hr, w]) (fun _ _ => rfl), hids]
    rw [filter_of_sublist _ hJ hV, List.filter_filter]
    · simp only [List.map_id']
      apply List.filter_congr
      intro x _
      rw [Bool.eq_iff_iff]
      simp only [Bool.and_eq_true, decide_eq_true_eq, condHolds_iff, and_comm]
    · intro x hx hp
      simp only [Bool.and_eq_true, decide_eq_true_eq] at hp
      exact hcov x hx hp.2.2
  have hsub : ∀ Q : Row → Bool, ∀ r ∈ rows.filter Q, r ∈ rows := fun Q r hr => (List.mem_filter.mp hr).1
  have h0 := hbelow (fun _ => true) (fun _ => true) (fun _ _ => rfl)
  rw [filter_tt] at h0
  simp only [Bool.true_and] at h0
  have hff : ∀ l : List Row, (l.filter fun r => condHolds M wh (r idx)).filter (fun r => r gv = id) =
      l.filter fun r => condHolds M wh (r idx) && decide (r gv = id) := by
    intro l
    rw [List.filter_filter]
    apply List.filter_congr
    intro r _
    rw [Bool.and_comm]
  cases hp : prev with
  | none =>
    have hg : grp = rows.filter fun r => condHolds M wh (r idx) && decide (r gv = id) := by
      simp only [grp, hp, aggGroup, prevObs, prevTime, Option.bind_none]
      exact hff rows
    refine ⟨by rw [hg]; exact hsub _, ?_⟩
    rw [hg, h0]
    rfl
  | some times =>
    cases ho : obsCount times with
    | some n =>
      have hg : grp = pyTail n (rows.filter fun r => condHolds M wh (r idx) && decide (r gv = id)) := by
        simp only [grp, hp, aggGroup, prevObs, prevTime, Option.bind_some, ho]
        rw [hff rows]
      refine ⟨by rw [hg]; exact fun r hr => hsub _ r (pyTail_subset n _ r hr), ?_⟩
      rw [hg, map_pyTail, h0]
      simp only [aggMembers, ho]
      rfl
    | none =>
      cases ht : w.timeIndex ce with
      | none =>
        have hg : grp = rows.filter fun r => condHolds M wh (r idx) && decide (r gv = id) := by
          simp only [grp, hp, aggGroup, prevObs, prevTime, Option.bind_some, ho]
          have : (worldOf env).timeIndex ce = none := ht
          simp only [this]
          exact hff rows
        refine ⟨by rw [hg]; exact hsub _, ?_⟩
        rw [hg, h0]
        have : (worldOf env).timeIndex ce = none := ht
        simp only [aggMembers, ho, this]
        rfl
      | some ti =>
        have ht' : (worldOf env).timeIndex ce = some ti := ht
        have hg : grp = rows.filter fun r => (r ti).ge (env.minus env.timeLast times) && (condHolds M wh (r idx) && decide (r gv = id)) := by
          simp only [grp, hp, aggGroup, prevObs, prevTime, Option.bind_some, ho, ht']
          rw [List.filter_filter, List.filter_filter]
          apply List.filter_congr
          intro r _
          rw [Bool.eq_iff_iff]
          simp only [Bool.and_eq_true]
          constructor
          · rintro ⟨⟨h1, h2⟩, h3⟩; exact ⟨h2, h3, h1⟩
          · rintro ⟨h1, h2, h3⟩; exact ⟨⟨h3, h1⟩, h2⟩
        refine ⟨by rw [hg]; exact hsub _, ?_⟩
        rw [hg, hbelow _ (fun x => (w.cell ce x ti).ge (env.minus env.timeLast times)) fun r hr => by rw [hti ti ht' r hr]]
        simp only [aggMembers, ho, ht']
        rfl

theorem aggArgs_eq (f : Feat) (p : AggPrim) (h : canAgg f p = true → f.bases.length = 1) : aggArgs f p = f.bases.map Feat.name := by
  unfold aggArgs
  split
  · rename_i hc
    rw [List.take_of_length_le (by rw [h hc]; exact Nat.le_refl _)]
  · rfl

/-- The `agg` branch is taken for a single base feature only, when no base feature is also the condition. -/
theorem canAgg_single {f : Feat} {p : AggPrim} (h : f.bases.length = 1 ∨ ∀ w ∈ f.wh, ∀ b ∈ f.bases, b.name ≠ w.name) :
    canAgg f p = true → f.bases.length = 1 := by
  rcases h with h | h
  · exact fun _ => h
  · unfold canAgg
    cases hw : f.wh with
    | nil => simp only [Bool.and_eq_true, beq_iff_eq]; exact fun hc => hc.1.2
    | cons w l =>
      have : f.bases.filter (fun b => decide (b.name ≠ w.name)) = f.bases := by
        rw [List.filter_eq_self]
        intro b hb
        simpa using h w (by simp [hw]) b hb
      simp only [this, Bool.and_eq_true, beq_iff_eq]
      exact fun hc => hc.1.2

theorem mapIdx_getD (names : List String) (outs : List Val) (h : outs.length = names.length) :
    (names.mapIdx fun k n => (n, outs.getD k .null)) = names.zip outs := by
  apply List.ext_getElem (by simp [h])
  intro k h1 h2
  simp only [List.length_mapIdx] at h1
  simp [List.getD, h, h1]

theorem calcAgg_ok {env M M' idx e B L lok D I} {t : Table} (h : FrameOk (worldOf env) M idx e B L lok D I t) (hidx : idx ∈ B)
    (fs : List Feat) (hne : fs ≠ []) (path : List Relationship) (prev : Option (Dict Int)) (wh : List Feat)
    (ce idx' : String) (dfs : DTrie) (base : Table) (J : List Val)
    (hM : ∀ f ∈ fs, M f = meaningStep (worldOf env) f.info (f.bases.map M') (f.wh.map M'))
    (hpath : path.getLast?.map Relationship.childE = some ce)
    (hbase : (Trie.nodeAt none (path.map fun r => (false, r)) dfs).value = some base)
    (hids : base.rows.map (fun r => r idx') = J) (hJ : J.Sublist ((worldOf env).ids ce)) (hV : ((worldOf env).ids ce).Nodup)
    (hgvc : relationshipVariableId path ∈ base.cols)
    (hgv : ∀ r ∈ base.rows, r (relationshipVariableId path) = (worldOf env).up path.reverse (r idx'))
    (hti : ∀ ti, (worldOf env).timeIndex ce = some ti → ∀ r ∈ base.rows, r ti = (worldOf env).cell ce (r idx') ti)
    (hcov : ∀ x ∈ (worldOf env).ids ce, (worldOf env).up path.reverse x ∈ I → x ∈ J)
    (hwl : wh.length ≤ 1)
    (hfs : ∀ f ∈ fs, ∃ p u, f.kind = .agg path p prev u ∧ f.wh = wh ∧ f.bases ≠ [] ∧ (∀ b ∈ f.bases, b.entity = ce) ∧
      (canAgg f p = true → f.bases.length = 1) ∧ ∀ t args, (p.fn t args).length = f.names.length)
    (hdep : ∀ f ∈ fs, ∀ d, d ∈ f.bases ∨ d ∈ f.wh → d.name ∈ base.cols ∧
      ∀ r ∈ base.rows, r d.name = one (M' d) (r idx'))
    (hnn : ∀ f ∈ fs, f.names ≠ []) (hnd : ∀ f ∈ fs, f.names.Nodup) (hnew : ∀ f ∈ fs, ∀ n ∈ f.names, n ∉ t.cols)
    (hdisj : ∀ f ∈ fs, ∀ g ∈ fs, f ≠ g → ∀ n ∈ f.names, n ∉ g.names) :
    ∃ t', calcAgg env idx fs t dfs = .ok t' ∧ FrameOk (worldOf env) M idx e B L lok (fun f => D f ∨ f ∈ fs) I t' := by
  let w := worldOf env
  obtain ⟨test, rest, hcons⟩ : ∃ a l, fs = a :: l := by
    cases fs with
    | nil => exact absurd rfl hne
    | cons a l => exact ⟨a, l, rfl⟩
  have htest : test ∈ fs := by simp [hcons]
  obtain ⟨tp, tu, htk, htw, htb, hte, _⟩ := hfs test htest
  have hfl : (fs.filter fun f => f.names.any fun n => !t.cols.contains n) = fs := by
    rw [List.filter_eq_self]
    intro f hf
    obtain ⟨n, hn⟩ := List.exists_mem_of_ne_nil _ (hnn f hf)
    rw [List.any_eq_true]
    exact ⟨n, hn, by simpa using hnew f hf n hn⟩
  have htpath : test.path = path.map fun r => (false, r) := by simp [Feat.path, htk, Kind.path]
  have hwf := whereFilter_ok M' idx' test base (by rw [htw]; exact hwl) (fun c hc => hdep test htest c (.inr hc))
  have htti : ((test.bases.head?.bind fun b => env.ent b.entity).bind Ent.timeIndex) = w.timeIndex ce := by
    cases hb : test.bases with
    | nil => exact absurd hb htb
    | cons b bs =>
      have := hte b (by simp [hb])
      simp only [List.head?_cons, Option.bind_some, this]
      rfl
  have hcm : ∀ c, c ∈ addCols t.cols (fs.flatMap Feat.names) ↔ c ∈ t.cols ∨ ∃ f ∈ fs, c ∈ f.names := by
    intro c; rw [mem_addCols]; simp [List.mem_flatMap]
  -- the rows for one id
  let rows2 := prevTime env (w.timeIndex ce) prev (base.rows.filter fun r => condHolds M' wh (r idx'))
  let gv := relationshipVariableId path
  have hgrp : ∀ id ∈ I, (∀ r ∈ aggGroup gv prev rows2 id, r ∈ base.rows) ∧
      (aggGroup gv prev rows2 id).map (fun r => r idx') = aggMembers w path prev (wh.map M') ce id := by
    intro id hid
    exact aggGroup_ok env M' idx' ce gv path prev wh base.rows J id hids hJ hV hgv hti
      (fun x hx hup => hcov x hx (by rw [hup]; exact hid))
  let vals : Val → Feat → List Val := fun id f =>
    let ms := aggMembers w path prev (wh.map M') ce id
    if ms = [] then f.names.map fun _ => .null
    else match f.kind with
      | .agg _ p _ _ => p.fn env.timeLast ((f.bases.map M').map fun b => ms.map (one b))
      | _ => []
  have hvl : ∀ id, ∀ f ∈ fs, (vals id f).length = f.names.length := by
    intro id f hf
    obtain ⟨p, u, hk, _, _, _, _, hs⟩ := hfs f hf
    simp only [vals]
    split
    · simp
    · simp only [hk]; exact hs _ _
  have hmean : ∀ id, ∀ f ∈ fs, M f id = (vals id f).map (orElse f.dflt) := by
    intro id f hf
    obtain ⟨p, u, hk, hw, _, _, _, hs⟩ := hfs f hf
    have hk' : f.info.kind = .agg path p prev u := hk
    rw [hM f hf]
    simp only [meaningStep, hk', hpath, Option.getD_some, hw, vals]
    split
    · simp only [List.map_map]
      apply List.map_congr_left
      intro n _
      simp only [Function.comp_def, orElse, if_true]
      rfl
    · simp only [hk]
      rfl
  -- a row with its new cells
  have hfill : ∀ (r : Row) (id : Val), ∀ f ∈ fs,
      f.names.map (fillRow fs (r.put (fs.flatMap fun f => f.names.zip (vals id f)))) = M f id := by
    intro r id f hf
    rw [hmean id f hf, ← put_feats fs (vals id) hnd hdisj r f hf (hvl id f hf), List.map_map]
    apply List.map_congr_left
    intro n hn
    rw [fillRow_mem fs _ f hf n hn]
    · rfl
    · intro g hg hgn
      apply Classical.byContradiction
      intro hgf
      exact hdisj g hg f hf hgf n hgn hn
  have hold : ∀ (r : Row) (id : Val), ∀ c ∈ t.cols, fillRow fs (r.put (fs.flatMap fun f => f.names.zip (vals id f))) c = r c := by
    intro r id c hc
    rw [fillRow_absent fs _ c fun g hg hgn => hnew g hg c hgn hc,
      put_feats_absent fs _ r c fun g hg hgn => hnew g hg c hgn hc]
  have hfin : ∀ t' : Table, t'.cols = addCols t.cols (fs.flatMap Feat.names) →
      t'.rows = t.rows.map (fun r => fillRow fs (r.put (fs.flatMap fun f => f.names.zip (vals (r idx) f)))) →
      FrameOk w M idx e B L lok (fun f => D f ∨ f ∈ fs) I t' := by
    intro t' hc hr
    refine h.extend hidx fs t' (fun _ r => fillRow fs (r.put (fs.flatMap fun f => f.names.zip (vals (r idx) f)))) ?_
      (fun c hcc => by rw [hc]; exact (hcm c).mpr (.inl hcc)) (fun c hcc => by rw [hc] at hcc; exact (hcm c).mp hcc)
      (fun f hf n hn => by rw [hc]; exact (hcm n).mpr (.inr ⟨f, hf, hn⟩)) (fun i r _ c hcc => hold r _ c hcc)
      (fun i r _ f hf => hfill r _ f hf)
    rw [hr]
    apply List.ext_getElem?
    intro i
    simp [List.getElem?_mapIdx]
  have hcalc : calcAgg env idx fs t dfs =
      if (base.rows.filter fun r => condHolds M' wh (r idx')).isEmpty then
        .ok { cols := addCols t.cols (fs.flatMap Feat.names)
              rows := t.rows.map fun r => fillRow fs (r.put (fs.flatMap fun f => f.names.map fun n => (n, .null))) }
      else aggRows env idx (w.timeIndex ce) test fs t
        { base with rows := base.rows.filter fun r => condHolds M' wh (r idx') } := by
    have hfl' : ((test :: rest).filter fun f => f.names.any fun n => !t.cols.contains n) = test :: rest := by
      rw [← hcons]; exact hfl
    rw [htw] at hwf
    simp only [calcAgg, hcons, hfl', htpath, hbase, hwf, htti]
    rfl
  rw [hcalc]
  have hIr : ∀ r ∈ t.rows, r idx ∈ I := fun r hr => by rw [← h.ids]; exact List.mem_map.mpr ⟨r, hr, rfl⟩
  split
  · rename_i hemp
    refine ⟨_, rfl, hfin _ rfl ?_⟩
    apply List.map_congr_left
    intro r hr
    have hms : aggMembers w path prev (wh.map M') ce (r idx) = [] := by
      rw [← (hgrp (r idx) (hIr r hr)).2]
      have hr2 : rows2 = [] := by
        have : (base.rows.filter fun r => condHolds M' wh (r idx')) = [] := by simpa using hemp
        simp only [rows2, this, prevTime]
        split
        · split <;> rfl
        · rfl
      rw [hr2]
      simp only [aggGroup, List.filter_nil, prevObs]
      split
      · simp [pyTail]
      · rfl
    congr 2
    apply flatMap_congr'
    intro f _
    simp only [vals, hms, if_true]
    exact map_pair_zip f.names .null
  · rename_i hemp
    have hcells : ∀ r ∈ t.rows, ∀ f ∈ fs, aggCells env gv prev rows2 f (r idx) = f.names.zip (vals (r idx) f) ∧
        aggShapeOk env gv prev rows2 f (r idx) = true := by
      intro r hr f hf
      obtain ⟨p, u, hk, hw, hb, hbe, hcan, hs⟩ := hfs f hf
      have hg := hgrp (r idx) (hIr r hr)
      have hcol : ∀ b ∈ f.bases, (aggGroup gv prev rows2 (r idx)).map (fun r => r b.name) =
          (aggMembers w path prev (wh.map M') ce (r idx)).map (one (M' b)) := by
        intro b hb
        rw [← hg.2, List.map_map]
        apply List.map_congr_left
        intro x hx
        exact (hdep f hf b (.inl hb)).2 x (hg.1 x hx)
      have hargs : ((aggArgs f p).map fun a => (aggGroup gv prev rows2 (r idx)).map fun r => r a) =
          (f.bases.map M').map fun b => (aggMembers w path prev (wh.map M') ce (r idx)).map (one b) := by
        rw [aggArgs_eq f p hcan, List.map_map, List.map_map]
        exact List.map_congr_left hcol
      have hemp' : (aggGroup gv prev rows2 (r idx)).isEmpty = true ↔ aggMembers w path prev (wh.map M') ce (r idx) = [] := by
        rw [← hg.2]; simp
      constructor
      · simp only [aggCells, hk, hargs, vals]
        by_cases hms : aggMembers w path prev (wh.map M') ce (r idx) = []
        · rw [if_pos (hemp'.mpr hms), if_pos hms]
          exact map_pair_zip f.names .null
        · rw [if_neg (fun hc => hms (hemp'.mp hc)), if_neg hms]
          exact mapIdx_getD f.names _ (hs _ _)
      · simp only [aggShapeOk, hk, hs, beq_self_eq_true, Bool.or_true]
    have hprev : aggPrev test = prev := by simp [aggPrev, htk]
    have hpth : aggPath test = path := by simp [aggPath, htk]
    have hc1 : (base.cols.contains gv && fs.all (aggColsOk { base with rows := base.rows.filter fun r => condHolds M' wh (r idx') })) = true := by
      simp only [Bool.and_eq_true, List.contains_iff_mem, List.all_eq_true]
      refine ⟨hgvc, fun f hf => ?_⟩
      obtain ⟨p, u, hk, hw, hb, hbe, hcan, hs⟩ := hfs f hf
      simp only [aggColsOk, hk, hasCols_iff, aggArgs_eq f p hcan]
      intro c hc
      obtain ⟨b, hb, rfl⟩ := List.mem_map.mp hc
      exact (hdep f hf b (.inl hb)).1
    have hc2 : (t.rows.all fun r => fs.all fun f => aggShapeOk env gv prev rows2 f (r idx)) = true := by
      simp only [List.all_eq_true]
      exact fun r hr f hf => (hcells r hr f hf).2
    refine ⟨{ cols := addCols t.cols (fs.flatMap Feat.names)
              rows := t.rows.map fun r =>
                fillRow fs (r.put (fs.flatMap fun f => aggCells env gv prev rows2 f (r idx))) }, ?_, hfin _ rfl ?_⟩
    · simp only [aggRows, hprev, hpth]
      rw [if_pos hc1, if_pos hc2]
    · apply List.map_congr_left
      intro r hr
      congr 2
      apply flatMap_congr'
      intro f hf
      exact (hcells r hr f hf).1

end FT
