import Verif.Lemmas.Graph3
/-! # C72: The lineage graph shows what a feature is calculated from -/
namespace FT
open Spec

/-- The tables have rows for exactly these: the features the target is calculated from, the target, and the columns which link the
entities on the way. Missing: features that share a name within an entity. -/
theorem C72_rows_partial (primName : Feat → String) (t : Feat) (fit : GraphFit t) (e n : String) :
    HasRow (featureGraph primName t).2 e n ↔
      (∃ f, Upstream t f ∧ e = f.entity ∧ n = f.name) ∨ ∃ f, Upstream t f ∧ ∃ step ∈ f.path, e = step.2.childE ∧ n = step.2.childV := by
  have hi := featureGraph_inv primName fit
  constructor
  · rintro (h | h)
    · rcases hi.vars _ h with ⟨f, hf, _, hk⟩ | ⟨f, hf, st, hst, hk⟩
      · simp only [Prod.mk.injEq] at hk
        exact .inl ⟨f, hf, hk⟩
      · simp only [Prod.mk.injEq] at hk
        exact .inr ⟨f, hf, st, hst, hk⟩
    · obtain ⟨f, hf, _, hk⟩ := hi.feats _ h
      simp only [Prod.mk.injEq] at hk
      exact .inl ⟨f, hf, hk⟩
  · rintro (⟨f, hf, rfl, rfl⟩ | ⟨f, hf, st, hst, rfl, rfl⟩)
    · exact (featureGraph_drawn primName fit hf).1
    · exact ((featureGraph_drawn primName fit hf).2.links st hst).1

/-- From every input, condition or group-by feature of a feature shown, and from the link columns of its children, lines lead to
it; the link columns of its parents are joined to it by a dotted line. -/
theorem C72_lines_partial (primName : Feat → String) (t : Feat) (fit : GraphFit t) (f : Feat) (hf : Upstream t f) :
    (∀ g, CalcFrom f g → Leads (featureGraph primName t).2 (featRow g) (featRow f)) ∧
    (∀ r, (false, r) ∈ f.path → Leads (featureGraph primName t).2 (.row r.childE r.childV) (featRow f)) ∧
    (∀ r, (true, r) ∈ f.path → ∃ a, (a, .row r.childE r.childV) ∈ (featureGraph primName t).2.dotted ∧
      Leads (featureGraph primName t).2 a (featRow f)) := by
  have h := (featureGraph_drawn primName fit hf).2
  exact ⟨fun g hg => (h.inputs g hg).2, fun r hr => (h.links _ hr).2.1 rfl, fun r hr => (h.links _ hr).2.2 rfl⟩

/-- From every feature that the target is calculated from, directly or not, lines lead to the target. -/
theorem C72_reaches_target_partial (primName : Feat → String) (t : Feat) (fit : GraphFit t) (f : Feat) (hf : Upstream t f) :
    Leads (featureGraph primName t).2 (featRow f) (featRow t) := by
  obtain ⟨n, hn⟩ := hf
  induction hn with
  | self => exact .refl
  | step hm hc ih => exact ((featureGraph_drawn primName fit ⟨_, hm⟩).2.inputs _ hc).2.trans ih

/-- Lines lead to a feature from nothing else than features it is calculated from and link columns of their children. Missing:
features in different entities that share a name. -/
theorem C72_nothing_else_partial (primName : Feat → String) (t : Feat) (fit : GraphFit t) (hn : SourcesTold t) (f : Feat) (hf : Upstream t f)
    (e n : String) (h : Leads (featureGraph primName t).2 (.row e n) (featRow f)) :
    (∃ g, Upstream f g ∧ e = g.entity ∧ n = g.name) ∨ ∃ g, Upstream f g ∧ ∃ r, (false, r) ∈ g.path ∧ e = r.childE ∧ n = r.childV := by
  have hg := leads_good fit hn (featureGraph_inv primName fit) hf h (.inl ⟨f, ⟨0, .self⟩, .inl rfl⟩)
  rcases hg with ⟨g, hg, h | ⟨_, h⟩⟩ | ⟨g, hg, st, hst, hs, h⟩
  · simp only [featRow, GNode.row.injEq] at h
    exact .inl ⟨g, hg, h⟩
  · simp [Inner] at h
  · simp only [GNode.row.injEq] at h
    obtain ⟨b, r⟩ := st
    dsimp only at hs
    subst hs
    exact .inr ⟨g, hg, r, hst, h⟩

/-- Every feature shown that has a primitive has a diamond with its name and kind, and there are no other diamonds. -/
theorem C72_diamonds_partial (primName : Feat → String) (t : Feat) (fit : GraphFit t) :
    (∀ f p, Upstream t f → DiamondName primName (shownSource f) p → ∃ d, DiamondOf (featureGraph primName t).2 f d ∧
      d.node = .prim d.layer (shownSource f).name p ∧ d.label = p.toUpper ∧ DiamondKind (shownSource f) d.type) ∧
    (∀ d ∈ (featureGraph primName t).2.prims, ∃ f p, UpstreamAt t d.layer f ∧ DiamondName primName (shownSource f) p ∧
      d.node = .prim d.layer (shownSource f).name p ∧ d.label = p.toUpper ∧ DiamondKind (shownSource f) d.type) := by
  constructor
  · intro f p hf hp
    obtain ⟨l, _, h2, h3⟩ := (featureGraph_drawn primName fit hf).2.prim p ((graphPrim_iff _ _ _).mpr hp)
    exact ⟨_, ⟨h2, h3⟩, rfl, rfl, graphType_kind ((graphPrim_iff _ _ _).mpr hp)⟩
  · intro d hd
    obtain ⟨f, p, hf, hp, he⟩ := (featureGraph_inv primName fit).prims d hd
    exact ⟨f, p, hf, (graphPrim_iff _ _ _).mp hp, by rw [he], by rw [he], by rw [he]; exact graphType_kind hp⟩

/-- Every "group by" box that a dotted line leads to is drawn and says the column it groups by, and there are no other boxes than those
of features shown. -/
theorem C72_boxes_partial (primName : Feat → String) (t : Feat) (fit : GraphFit t) :
    (∀ a n e v, (a, .group n e v) ∈ (featureGraph primName t).2.dotted → (.group n e v, v) ∈ (featureGraph primName t).2.groups) ∧
    (∀ x ∈ (featureGraph primName t).2.groups, ∃ f e, Upstream t f ∧ x.1 = .group (shownSource f).name e x.2) := by
  have hi := featureGraph_inv primName fit
  refine ⟨fun a n e v h => hi.labels _ h n e v rfl, ?_⟩
  intro x hx
  obtain ⟨f, e, hf, _, h⟩ := hi.boxes x hx
  exact ⟨f, e, hf, h⟩

/-- The steps are numbered from 1 to the number of the target's step. Missing: grouping by calculated features. -/
theorem C72_steps_partial (primName : Feat → String) (t : Feat) (fit : GraphFit t) (hg : GroupsByColumns t)
    (hin : ∀ f p, Upstream t f → DiamondName primName (shownSource f) p → HasInput f) (d : GDiamond) (hd : d ∈ (featureGraph primName t).2.prims) :
    1 ≤ graphStep (featureGraph primName t) d ∧ graphStep (featureGraph primName t) d ≤ (featureGraph primName t).1 ∧
    (graphStep (featureGraph primName t) d = (featureGraph primName t).1 ↔ d.layer = 0) := by
  have h := (visit_depth primName fit (by
      intro f g hf h
      unfold graphGroupby at h
      split at h
      · rename_i p hp
        exact hg f g p hf hp h
      · cases h) (by
      intro f p hf hp
      have hi := hin f p hf ((graphPrim_iff _ _ _).mp hp)
      unfold HasInput at hi
      unfold graphInputs graphGroupby
      split at hi
      · rename_i q hq
        rw [hq]
        dsimp only
        cases hl : (shownSource f).bases.getLast? with
        | none =>
          simp only [List.getLast?_eq_none_iff] at hl
          rw [hl] at hi
          simp at hi
        | some g =>
          dsimp only
          intro he
          have := List.length_eraseP_of_mem (p := fun d : Feat => decide (d.name ++ d.entity = g.name ++ g.entity)) (l := (shownSource f).deps) (a := g)
            (by simp [Feat.deps, List.mem_of_getLast? hl]) (by simp)
          rw [he] at this
          simp [Feat.deps] at this
          omega
      · rename_i hq
        split
        · simp only [Feat.deps, ne_eq, List.append_eq_nil_iff, not_and]
          intro h1 h2
          rcases hi with h | h
          · exact h h1
          · exact h h2
        · rename_i g hgb
          split at hgb
          · rename_i q hk
            exact absurd hk (hq q)
          · cases hgb) t.size 0 t ⟨[], [], [], [], [], [], []⟩ (Nat.le_refl _) ⟨0, .self⟩).2 d hd
  unfold graphStep
  rcases h with h | h
  · simp at h
  · change d.layer < (featureGraph primName t).1 at h
    omega

/-- An input is calculated in an earlier step. Missing: features used at several distances from the target. -/
theorem C72_order_partial (primName : Feat → String) (t : Feat) (fit : GraphFit t) (hn : SourcesTold t) (hone : OneDistance t)
    (f g : Feat) (hf : Upstream t f) (hfg : CalcFrom f g) (d d' : GDiamond) (hd : DiamondOf (featureGraph primName t).2 f d)
    (hd' : DiamondOf (featureGraph primName t).2 g d') :
    graphStep (featureGraph primName t) d' < graphStep (featureGraph primName t) d := by
  have hi := featureGraph_inv primName fit
  have key : ∀ h e, Upstream t h → DiamondOf (featureGraph primName t).2 h e → ∀ m, UpstreamAt t m h → e.layer = m := by
    intro h e hh ⟨he1, he2⟩ m hm
    obtain ⟨f1, p, hf1, hp, he⟩ := hi.prims e he1
    obtain ⟨f2, hf2, hni, hown, hfrom⟩ := hi.solid _ he2
    dsimp only at hown hfrom
    have e2 : f2 = h := by
      rcases hown with h' | h'
      · simp only [featRow, GNode.row.injEq] at h'
        exact (fit.names h f2 hh hf2 h'.1 h'.2).symm
      · simp [featRow, Inner] at h'
    subst e2
    have hnode : e.node = .prim e.layer (shownSource f1).name p := by rw [he]
    rw [hnode] at hfrom
    have hname : (shownSource f1).name = (shownSource f2).name := by
      rcases hfrom with h' | ⟨g', _, h'⟩
      · simpa [Inner] using h'
      · simp [featRow] at h'
    exact hone f1 f2 _ _ hf1 hm (not_identity_of_prim hp) (hn f1 f2 ⟨_, hf1⟩ hf2 (not_identity_of_prim hp) hni hname)
  obtain ⟨m, hm⟩ := hf
  have h1 := key f d ⟨m, hm⟩ hd m hm
  have h2 := key g d' ⟨m + 1, .step hm hfg⟩ hd' (m + 1) (.step hm hfg)
  unfold graphStep
  omega

/-- The table of an entity has each of its rows exactly once, the index (if used) first and marked, and the target in its colour. -/
theorem C72_table_partial (primName : Feat → String) (t : Feat) (fit : GraphFit t) (index e : String) :
    let s := (featureGraph primName t).2
    let table := graphTable index (t.entity, t.name) s e
    (table.map GRow.text).Nodup ∧
    (∀ n, (∃ row ∈ table, row.text = n) ↔ HasRow s e n) ∧
    (∀ row ∈ table, row.isTarget = true ↔ e = t.entity ∧ row.text = t.name) ∧
    (∀ row ∈ table, row.isIndex = true ↔ row.text = index ∧ ((e, index) ∈ s.vars ∨ (e, index) = (t.entity, t.name))) ∧
    (((e, index) ∈ s.vars ∨ (e, index) = (t.entity, t.name)) → table.head?.map GRow.text = some index) := by
  intro s table
  have hi : GInv primName t s := featureGraph_inv primName fit
  have htarget : HasRow s t.entity t.name := (featureGraph_drawn primName fit ⟨0, .self⟩).1
  have hdis := fun k h1 h2 => vars_feats_disjoint (k := k) fit hi h1 h2
  have hvn : ((s.vars.filter fun k => k.1 = e).map Prod.snd).Nodup := by
    refine List.Pairwise.map _ ?_ (List.Pairwise.and_mem.mp (hi.nodups.2.1.filter fun k => k.1 = e))
    rintro ⟨a, b⟩ ⟨c, d⟩ ⟨h1, h2, h3⟩ h4
    simp only [List.mem_filter, decide_eq_true_eq] at h1 h2
    dsimp only at h4
    exact h3 (by rw [h1.2, h2.2, h4])
  have hfn : ((s.feats.filter fun k => k.1 = e).map Prod.snd).Nodup := by
    refine List.Pairwise.map _ ?_ (List.Pairwise.and_mem.mp (hi.nodups.2.2.filter fun k => k.1 = e))
    rintro ⟨a, b⟩ ⟨c, d⟩ ⟨h1, h2, h3⟩ h4
    simp only [List.mem_filter, decide_eq_true_eq] at h1 h2
    dsimp only at h4
    exact h3 (by rw [h1.2, h2.2, h4])
  have hvm : ∀ n, n ∈ (s.vars.filter fun k => k.1 = e).map Prod.snd ↔ (e, n) ∈ s.vars := by
    intro n
    simp only [List.mem_map, List.mem_filter, decide_eq_true_eq]
    constructor
    · rintro ⟨⟨a, b⟩, ⟨h1, h2⟩, h3⟩; dsimp only at h2 h3; subst h2; subst h3; exact h1
    · intro h; exact ⟨(e, n), ⟨h, rfl⟩, rfl⟩
  have hfm : ∀ n, n ∈ (s.feats.filter fun k => k.1 = e).map Prod.snd ↔ (e, n) ∈ s.feats := by
    intro n
    simp only [List.mem_map, List.mem_filter, decide_eq_true_eq]
    constructor
    · rintro ⟨⟨a, b⟩, ⟨h1, h2⟩, h3⟩; dsimp only at h2 h3; subst h2; subst h3; exact h1
    · intro h; exact ⟨(e, n), ⟨h, rfl⟩, rfl⟩
  have htn : (if t.entity = e then [t.name] else []).Nodup := by split <;> simp
  have htm : ∀ n, n ∈ (if t.entity = e then [t.name] else []) ↔ e = t.entity ∧ n = t.name := by
    intro n
    split
    · rename_i h; simp [h]
    · rename_i h; simp [Ne.symm h]
  simp only [table, graphTable]
  generalize (if t.entity = e then [t.name] else [] : List String) = T at htn htm ⊢
  generalize (s.vars.filter fun k => k.1 = e).map Prod.snd = V at hvn hvm ⊢
  generalize (s.feats.filter fun k => k.1 = e).map Prod.snd = F at hfn hfm ⊢
  have hall : (V.filter (fun v => !T.contains v) ++ F.filter (fun v => !T.contains v) ++ T).Nodup := by
    rw [List.nodup_append, List.nodup_append]
    refine ⟨⟨hvn.filter _, hfn.filter _, ?_⟩, htn, ?_⟩
    · intro a ha b hb hab
      subst hab
      exact hdis (e, a) ((hvm a).mp (List.mem_filter.mp ha).1) ((hfm a).mp (List.mem_filter.mp hb).1)
    · intro a ha b hb hab
      subst hab
      rcases List.mem_append.mp ha with ha | ha <;>
      · have := (List.mem_filter.mp ha).2
        simp [hb] at this
  have hmem : ∀ n, n ∈ V.filter (fun v => !T.contains v) ++ F.filter (fun v => !T.contains v) ++ T ↔ HasRow s e n := by
    intro n
    simp only [List.mem_append, List.mem_filter, Bool.not_eq_true', List.contains_eq_mem, decide_eq_false_iff_not, hvm, hfm, htm, HasRow]
    constructor
    · rintro ((⟨h, _⟩ | ⟨h, _⟩) | ⟨rfl, rfl⟩)
      · exact .inl h
      · exact .inr h
      · exact htarget
    · intro h
      by_cases hT : e = t.entity ∧ n = t.name
      · exact .inr hT
      · left
        rcases h with h | h
        · exact .inl ⟨h, hT⟩
        · exact .inr ⟨h, hT⟩
  by_cases h1 : (V.filter fun v => !T.contains v).contains index = true
  · rw [if_pos h1]
    have h1' : index ∈ V.filter (fun v => !T.contains v) := by simpa using h1
    have h1v : (e, index) ∈ s.vars := (hvm index).mp (List.mem_filter.mp h1').1
    have h1t : index ∉ T := by
      have := (List.mem_filter.mp h1').2
      simpa using this
    generalize V.filter (fun v => !T.contains v) = V' at *
    generalize F.filter (fun v => !T.contains v) = F' at *
    have hrest : ∀ n, n ∈ V'.filter (· ≠ index) ++ F' ++ T ↔ n ≠ index ∧ n ∈ V' ++ F' ++ T := by
      intro n
      rw [List.nodup_append, List.nodup_append] at hall
      simp only [List.mem_append, List.mem_filter, decide_eq_true_eq]
      constructor
      · rintro ((⟨h, hne⟩ | h) | h)
        · exact ⟨hne, .inl (.inl h)⟩
        · refine ⟨fun he => ?_, .inl (.inr h)⟩
          exact hall.1.2.2 index h1' n h he.symm
        · refine ⟨fun he => h1t (he ▸ h), .inr h⟩
      · rintro ⟨hne, (h | h) | h⟩
        · exact .inl (.inl ⟨h, hne⟩)
        · exact .inl (.inr h)
        · exact .inr h
    refine ⟨?_, ?_, ?_, ?_, fun _ => rfl⟩
    · simp only [List.map_cons, List.map_map]
      rw [List.nodup_cons]
      refine ⟨?_, ?_⟩
      · intro h
        obtain ⟨n, hn, he⟩ := List.mem_map.mp h
        dsimp only [Function.comp] at he
        exact ((hrest n).mp hn).1 he
      · rw [show (GRow.text ∘ fun v => (⟨v, false, T.contains v⟩ : GRow)) = id from rfl, List.map_id]
        exact List.Nodup.sublist ((List.filter_sublist.append_right _).append_right _) hall
    · intro n
      rw [← hmem]
      simp only [List.mem_cons, exists_eq_or_imp, mem_rows]
      constructor
      · rintro (h | h)
        · subst h
          exact List.mem_append_left _ (List.mem_append_left _ h1')
        · exact ((hrest n).mp h).2
      · intro h
        by_cases he : index = n
        · exact .inl he
        · exact .inr ((hrest n).mpr ⟨Ne.symm he, h⟩)
    · intro row hrow
      rcases List.mem_cons.mp hrow with rfl | hrow
      · simp only [Bool.false_eq_true, false_iff]
        rintro ⟨he, hn⟩
        exact h1t ((htm index).mpr ⟨he, hn⟩)
      · obtain ⟨n, _, rfl⟩ := List.mem_map.mp hrow
        simp only [List.contains_eq_mem, decide_eq_true_eq]
        exact htm n
    · intro row hrow
      rcases List.mem_cons.mp hrow with rfl | hrow
      · simp [h1v]
      · obtain ⟨n, hn, rfl⟩ := List.mem_map.mp hrow
        simp only [Bool.false_eq_true, false_iff]
        rintro ⟨he, _⟩
        exact ((hrest n).mp hn).1 he
  · rw [if_neg h1]
    have h1' : index ∉ V.filter (fun v => !T.contains v) := by simpa using h1
    by_cases h2 : T.contains index = true
    · rw [if_pos h2]
      have h2' : index ∈ T := by simpa using h2
      obtain ⟨he, hn⟩ := (htm index).mp h2'
      have hTi : ∀ n, n ∈ T.filter (· ≠ index) → False := by
        intro n h
        simp only [List.mem_filter, decide_eq_true_eq] at h
        exact h.2 (((htm n).mp h.1).2.trans hn.symm)
      have hT0 : T.filter (· ≠ index) = [] := by
        rw [List.eq_nil_iff_forall_not_mem]
        exact hTi
      rw [hT0]
      simp only [List.append_nil]
      have hT1 : ∀ n, n ∈ T ↔ n = index := by
        intro n
        rw [htm, hn]
        exact ⟨fun h => h.2, fun h => ⟨he, h⟩⟩
      have hnot : ∀ n ∈ V.filter (fun v => !T.contains v) ++ F.filter (fun v => !T.contains v), n ≠ index := by
        intro n h hc
        subst hc
        rcases List.mem_append.mp h with h | h <;>
        · have := (List.mem_filter.mp h).2
          simp [h2'] at this
      rw [List.nodup_append] at hall
      generalize V.filter (fun v => !T.contains v) ++ F.filter (fun v => !T.contains v) = L at *
      refine ⟨?_, ?_, ?_, ?_, fun _ => rfl⟩
      · simp only [List.map_cons, List.map_map]
        rw [List.nodup_cons]
        refine ⟨?_, ?_⟩
        · intro h
          obtain ⟨n, hn, he⟩ := List.mem_map.mp h
          dsimp only [Function.comp] at he
          exact hnot n hn he
        · rw [show (GRow.text ∘ fun v => (⟨v, false, ([] : List String).contains v⟩ : GRow)) = id from rfl, List.map_id]
          exact hall.1
      · intro n
        rw [← hmem, List.mem_append, hT1]
        simp only [List.mem_cons, exists_eq_or_imp, mem_rows]
        constructor
        · rintro (h | h)
          · exact .inr h.symm
          · exact .inl h
        · rintro (h | h)
          · exact .inr h
          · exact .inl h.symm
      · intro row hrow
        rcases List.mem_cons.mp hrow with rfl | hrow
        · simp [he, hn]
        · obtain ⟨n, hn', rfl⟩ := List.mem_map.mp hrow
          simp only [List.contains_nil, Bool.false_eq_true, false_iff]
          rintro ⟨_, h⟩
          exact hnot n hn' (h.trans hn.symm)
      · intro row hrow
        rcases List.mem_cons.mp hrow with rfl | hrow
        · simp [he, hn]
        · obtain ⟨n, hn', rfl⟩ := List.mem_map.mp hrow
          simp only [Bool.false_eq_true, false_iff]
          rintro ⟨h, _⟩
          exact hnot n hn' h
    · rw [if_neg h2]
      have h2' : index ∉ T := by simpa using h2
      have hno : ¬ ((e, index) ∈ s.vars ∨ (e, index) = (t.entity, t.name)) := by
        rintro (h | h)
        · exact h1' (List.mem_filter.mpr ⟨(hvm index).mpr h, by simpa using h2'⟩)
        · simp only [Prod.mk.injEq] at h
          exact h2' ((htm index).mpr h)
      generalize V.filter (fun v => !T.contains v) ++ F.filter (fun v => !T.contains v) ++ T = L at *
      refine ⟨?_, ?_, ?_, ?_, fun h => absurd h hno⟩
      · rw [List.map_map, show (GRow.text ∘ fun v => (⟨v, false, T.contains v⟩ : GRow)) = id from rfl, List.map_id]
        exact hall
      · intro n
        rw [← hmem]
        exact mem_rows L _ n
      · intro row hrow
        obtain ⟨n, _, rfl⟩ := List.mem_map.mp hrow
        simp only [List.contains_eq_mem, decide_eq_true_eq]
        exact htm n
      · intro row hrow
        obtain ⟨n, _, rfl⟩ := List.mem_map.mp hrow
        simp only [Bool.false_eq_true, false_iff]
        rintro ⟨_, h⟩
        exact hno h

end FT
