import Verif.Lemmas.PlanNodes
import Verif.Lemmas.World
import Verif.Lemmas.NodeBasics
import Verif.Spec.NoLeak
/-! # The computation only looks at what is shown -/
namespace FT
open Spec

theorem secondaryIndependent_iff (l : List (String × List String)) :
    SecondaryIndependent l ↔ l.Pairwise fun s s' => s'.1 ∉ s.2 := by
  induction l with
  | nil => simp [SecondaryIndependent]
  | cons a l ih => simp [SecondaryIndependent, ih]

theorem windowStart_eq (w : Option Window) : Window.start? w = windowStart w := by
  rcases w with _ | ⟨_ | _⟩ <;> rfl

/-- A query in terms of the shown rows. -/
theorem query_shown (env : Env) (e : Ent) (vals : Option (List Val)) (var : Option String) (cols : Option (List String))
    (hw : env.window.all Window.hasNoObservations = true) :
    queryByValues e vals var cols (some env.timeLast) env.window env.includeCutoff =
      if (match valsToSeries vals with | some (_ :: _) => e.df.cols.contains (var.getD e.index) | _ => true) then
        selectColumns e cols (((e.df.rows.filter (visB env e)).filter (wantedB vals (var.getD e.index))).map (shown env e))
      else .error .keyError := by
  unfold queryByValues
  rw [if_pos hw]
  have hrow : ∀ rows : List Row, handleTime e rows (some env.timeLast) env.window env.includeCutoff =
      .ok ((rows.filter (visB env e)).map (shown env e)) := by
    intro rows
    simp only [handleTime, handleTimeIndex_eq _ _ _ _ _ hw, handleSecondary_eq, bind, Except.bind, pure, Except.pure]
    rfl
  by_cases hsel : (match valsToSeries vals with | some (_ :: _) => e.df.cols.contains (var.getD e.index) | _ => true) = true
  · rw [if_pos hsel]
    have : selectRows e (valsToSeries vals) (var.getD e.index) = .ok (e.df.rows.filter (wantedB vals (var.getD e.index))) := by
      cases vals with
      | none =>
        simp only [valsToSeries, Option.map_none, selectRows]
        congr 1
        rw [List.filter_eq_self.mpr]
        intro r _; rfl
      | some l =>
        have hwb : ∀ r : Row, wantedB (some l) (var.getD e.index) r = (dropna (dedup l)).contains (r (var.getD e.index)) := by
          intro r
          rw [Bool.eq_iff_iff, wantedB_iff]
          simp [Wanted, mem_dropna, mem_dedup]
        simp only [valsToSeries, Option.map_some] at hsel ⊢
        cases hd : dropna (dedup l) with
        | nil =>
          simp only [selectRows]
          congr 1
          symm
          rw [List.filter_eq_nil_iff]
          intro r _
          rw [hwb, hd]; simp
        | cons v vs =>
          simp only [hd] at hsel
          simp only [selectRows, hsel, if_true]
          congr 1
          apply List.filter_congr
          intro r _
          rw [hwb, hd]
    rw [this]
    simp only [bind, Except.bind, hrow, List.filter_filter, Bool.and_comm]
  · rw [if_neg hsel]
    have : selectRows e (valsToSeries vals) (var.getD e.index) = .error .keyError := by
      cases h : valsToSeries vals with
      | none => simp [h] at hsel
      | some l =>
        cases l with
        | nil => simp [h] at hsel
        | cons v vs =>
          simp only [h] at hsel
          simp only [selectRows]
          rw [if_neg hsel]
    rw [this]; rfl

theorem visB_iff (env : Env) (ent : Ent) (r : Row) : visB env ent r = true ↔ Visible env ent r := by
  simp only [visB, Bool.and_eq_true, beforeB_iff, windowB_iff, windowStart_eq]
  exact Iff.rfl

open Classical in
/-- Queries that select by a column never hidden give the same. -/
theorem query_same {env : Env} {a b : Ent} (h : SameShown env a b) (ha : SecondaryApart a) (vals : Option (List Val))
    (var : Option String) (cols : Option (List String)) (hvar : vals ≠ none → ∀ s ∈ a.secondary, var.getD a.index ∉ s.2) :
    queryByValues a vals var cols (some env.timeLast) env.window env.includeCutoff =
    queryByValues b vals var cols (some env.timeLast) env.window env.includeCutoff := by
  by_cases hw : env.window.all Window.hasNoObservations = true
  · rw [query_shown env a vals var cols hw, query_shown env b vals var cols hw, h.cols, ← h.index]
    have hb : SecondaryApart b := by unfold SecondaryApart; rw [← h.secondary]; exact ha
    have hsa := maskAll_spec a (some env.timeLast) ((secondaryIndependent_iff _).mpr ha)
    have hsb := maskAll_spec b (some env.timeLast) ((secondaryIndependent_iff _).mpr hb)
    obtain ⟨pairs, h1, h2, h3⟩ := h.rows
    have hva : a.df.rows.filter (visB env a) = pairs.map Prod.fst := by
      rw [← h1]; apply List.filter_congr; intro r _; rw [Bool.eq_iff_iff, visB_iff, decide_eq_true_eq]
    have hvb : b.df.rows.filter (visB env b) = pairs.map Prod.snd := by
      rw [← h2]; apply List.filter_congr; intro r _; rw [Bool.eq_iff_iff, visB_iff, decide_eq_true_eq]
    have hrows : ((a.df.rows.filter (visB env a)).filter (wantedB vals (var.getD a.index))).map (shown env a) =
        ((b.df.rows.filter (visB env b)).filter (wantedB vals (var.getD a.index))).map (shown env b) := by
      rw [hva, hvb, List.filter_map, List.filter_map, List.map_map, List.map_map]
      have hwant : ∀ pr ∈ pairs, wantedB vals (var.getD a.index) pr.1 = wantedB vals (var.getD a.index) pr.2 := by
        intro pr hpr
        rw [Bool.eq_iff_iff, wantedB_iff, wantedB_iff]
        cases vals with
        | none => simp [Wanted]
        | some l =>
          have := (h3 pr hpr (var.getD a.index)).2 (by
            rintro ⟨s, hs, hc, _⟩
            exact hvar (by simp) s hs hc)
          simp [Wanted, this]
      have hf : pairs.filter (wantedB vals (var.getD a.index) ∘ Prod.fst) = pairs.filter (wantedB vals (var.getD a.index) ∘ Prod.snd) :=
        List.filter_congr hwant
      rw [hf]
      apply List.map_congr_left
      intro pr hpr
      have hpr := (List.mem_filter.mp hpr).1
      funext c
      obtain ⟨hiff, heq⟩ := h3 pr hpr c
      by_cases hk : NotYetKnown a (some env.timeLast) pr.1 c
      · exact ((hsa pr.1 c).1 hk).trans ((hsb pr.2 c).1 (hiff.mp hk)).symm
      · exact ((hsa pr.1 c).2 hk).trans ((heq hk).trans ((hsb pr.2 c).2 fun hk' => hk (hiff.mpr hk')).symm)
    rw [hrows]
    have hsc : ∀ rows, selectColumns a cols rows = selectColumns b cols rows := by
      intro rows; cases cols <;> simp [selectColumns, h.cols]
    rw [hsc]
  · simp [queryByValues, hw]

section
variable (env : Env) (ent' : String → Option Ent)

theorem calcAgg_same (hti : ∀ e, (env.ent e).bind Ent.timeIndex = (ent' e).bind Ent.timeIndex) (idx : String) (fs : List Feat) (t : Table) (dfs : DTrie) :
    calcAgg { env with ent := ent' } idx fs t dfs = calcAgg env idx fs t dfs := by
  have : ∀ test : Feat, ((test.bases.head?.bind fun b => ent' b.entity).bind Ent.timeIndex) =
      ((test.bases.head?.bind fun b => env.ent b.entity).bind Ent.timeIndex) := by
    intro test
    cases test.bases.head? with
    | none => rfl
    | some b => exact (hti b.entity).symm
  unfold calcAgg
  simp only [this]
  rfl

theorem calcFeatures_same (hti : ∀ e, (env.ent e).bind Ent.timeIndex = (ent' e).bind Ent.timeIndex) (idx : String) (fs : List Feat) (t : Table) (dfs : DTrie) :
    calcFeatures { env with ent := ent' } idx fs t dfs = calcFeatures env idx fs t dfs := by
  unfold calcFeatures
  show calcGroups _ _ _ (groupFeatures env.rels fs) t = _
  generalize groupFeatures env.rels fs = gs
  induction gs generalizing t with
  | nil => rfl
  | cons g gs ih =>
    simp only [calcGroups]
    have : calcGroup { env with ent := ent' } idx g t dfs = calcGroup env idx g t dfs := by
      unfold calcGroup
      cases g with
      | nil => rfl
      | cons f fs =>
        simp only [calcAgg_same env ent' hti]
        rfl
    rw [this]
    cases calcGroup env idx g t dfs with
    | error e => rfl
    | ok t' => exact ih t'

end

mutual
/-- Every edge below satisfies `P`. -/
def EdgesOk (P : Relationship → Prop) : FTrie → Prop
  | .node _ cs => EdgesOks P cs
def EdgesOks (P : Relationship → Prop) : List (Edge × FTrie) → Prop
  | [] => True
  | (k, t) :: cs => P k.2 ∧ EdgesOk P t ∧ EdgesOks P cs
end

mutual
theorem edgesOk_of {P : Relationship → Prop} : ∀ t : FTrie, Trie.WF t → (∀ p k, hasNode (p ++ [k]) t → P k.2) → EdgesOk P t
  | .node v cs, hwf, h => by
    rw [EdgesOk]
    have hwf' : (cs.map Prod.fst).Nodup ∧ Trie.WFs cs := by simpa only [Trie.WF] using hwf
    refine edgesOks_of cs hwf'.2 ?_
    intro c hc
    have hch := Trie.child?_of_mem hwf'.1 (show (c.1, c.2) ∈ cs from hc)
    refine ⟨h [] c.1 ((hasNode_cons ..).mpr ⟨_, hch, trivial⟩), fun p k hk => h (c.1 :: p) k ?_⟩
    exact (hasNode_cons ..).mpr ⟨_, hch, hk⟩
theorem edgesOks_of {P : Relationship → Prop} : ∀ cs : List (Edge × FTrie), Trie.WFs cs →
    (∀ c ∈ cs, P c.1.2 ∧ ∀ p k, hasNode (p ++ [k]) c.2 → P k.2) → EdgesOks P cs
  | [], _, _ => trivial
  | (k, t) :: cs, hwf, h => by
    have hwf' : Trie.WF t ∧ Trie.WFs cs := by simpa only [Trie.WFs] using hwf
    rw [EdgesOks]
    exact ⟨(h _ List.mem_cons_self).1, edgesOk_of t hwf'.1 (h _ List.mem_cons_self).2,
      edgesOks_of cs hwf'.2 fun c hc => h c (List.mem_cons_of_mem _ hc)⟩
end

section
variable (env : Env) (ent' : String → Option Ent) (byName : String → Option Feat) (P : String → String → Prop)
  (hent : ∀ e, (env.ent e = none ∧ ent' e = none) ∨ ∃ a b, env.ent e = some a ∧ ent' e = some b ∧ SameShown env a b ∧ SecondaryApart a ∧
    ∀ v, P e v → ∀ s ∈ a.secondary, v ∉ s.2)
include hent

theorem timeIndex_same : ∀ e, (env.ent e).bind Ent.timeIndex = (ent' e).bind Ent.timeIndex := by
  intro e
  rcases hent e with ⟨h1, h2⟩ | ⟨a, b, h1, h2, h, _⟩
  · rw [h1, h2]
  · rw [h1, h2]; exact h.timeIndex

theorem prepNode_same (e : String) (v : NodeVal) (fv : String) (fvals : List Val) (pd : Option ParentData) (hfv : P e fv) :
    prepNode { env with ent := ent' } byName e v fv fvals pd = prepNode env byName e v fv fvals pd := by
  unfold prepNode
  rcases hent e with ⟨h1, h2⟩ | ⟨a, b, h1, h2, h, hap, hP⟩
  · simp only [Env.getEnt, h1, h2]
  · simp only [Env.getEnt, h1, h2]
    cases findFeats byName (v.full ++ v.notFull) with
    | error e => rfl
    | ok fs =>
      have := query_same h hap (if v.need then none else some fvals) (if v.need then none else some fv)
        (some (necessaryColumns env e fs)) (by
          intro hv
          cases hn : v.need with
          | true => simp [hn] at hv
          | false => simpa [hn] using hP fv hfv)
      have hq : queryByValues b (if v.need then none else some fvals) (if v.need then none else some fv)
          (some (necessaryColumns { env with ent := ent' } e fs)) (some env.timeLast) env.window env.includeCutoff = _ := this.symm
      simp only [hq]
      rfl

theorem finishNode_same (e : String) (v : NodeVal) (fv : String) (fvals : List Val) (df : Table) (pre : Option PreTable)
    (kids : List (Edge × DTrie × DTrie)) :
    finishNode { env with ent := ent' } byName e v fv fvals df pre kids = finishNode env byName e v fv fvals df pre kids := by
  have hti := timeIndex_same env ent' P hent
  unfold finishNode
  rcases hent e with ⟨h1, h2⟩ | ⟨a, b, h1, h2, h, _⟩
  · simp only [Env.getEnt, h1, h2]
  · simp only [Env.getEnt, h1, h2, fullStep, calcFeatures_same env ent' hti, h.index]

mutual
theorem calcNode_same : ∀ (t : FTrie) (pre : PTrie) (e fv : String) (fvals : List Val) (pd : Option ParentData),
    EdgesOk (fun r => P r.childE r.childV ∧ P r.parentE r.parentV) t → P e fv →
    calcNode { env with ent := ent' } byName t pre e fv fvals pd = calcNode env byName t pre e fv fvals pd
  | .node v cs, pre, e, fv, fvals, pd, hed, hfv => by
    rw [EdgesOk] at hed
    simp only [calcNode, prepNode_same env ent' byName P hent e v fv fvals pd hfv, finishNode_same env ent' byName P hent,
      calcKids_same cs pre _ _ _ hed]
theorem calcKids_same : ∀ (cs : List (Edge × FTrie)) (pre : PTrie) (df filtered : Table) (anc : List String),
    EdgesOks (fun r => P r.childE r.childV ∧ P r.parentE r.parentV) cs →
    calcKids { env with ent := ent' } byName cs pre df filtered anc = calcKids env byName cs pre df filtered anc
  | [], _, _, _, _, _ => rfl
  | (edge, sub) :: rest, pre, df, filtered, anc, hed => by
    rw [EdgesOks] at hed
    obtain ⟨⟨hc, hp⟩, hs, hr⟩ := hed
    simp only [calcKids]
    cases ha : subArgs edge df filtered anc with
    | error e => rfl
    | ok x =>
      obtain ⟨e, fv, fvals, pd⟩ := x
      have hfv : P e fv := by
        obtain ⟨b, r⟩ := edge
        cases b
        · simp only [subArgs] at ha
          split at ha
          · cases ha; exact hc
          · cases ha
        · simp only [subArgs] at ha
          split at ha
          · cases ha; exact hp
          · cases ha
      simp only [calcNode_same sub _ e fv fvals pd hs hfv, calcKids_same rest pre df filtered anc hr]
end

end

theorem planned_edges {targets : List Feat} {hid : List Edge → List String} {P : Relationship → Prop}
    (h : ∀ g, NeededBy targets g → ∀ ed ∈ g.path, P ed.2) {p f full} (hp : Planned targets hid p f full) : ∀ ed ∈ p, P ed.2 := by
  induction hp with
  | target _ _ => intro ed hed; cases hed
  | @dep p f full d e hp hd he hn ih =>
    intro ed hed
    rcases List.mem_append.mp hed with hed | hed
    · exact ih ed hed
    · exact h f hp.neededBy ed hed

/-- The whole run only looks at what is shown. -/
theorem runCalc_same (env : Env) (ent' : String → Option Ent) (targets : List Feat) (approx : ATrie) (pre : PTrie) (e : String) (ids : List Val)
    (hent : ∀ x, SameAt env (env.ent x) (ent' x))
    (hap : ∀ x ent, env.ent x = some ent → SecondaryApart ent) (hkey : KeysKnown env targets e) :
    runCalc { env with ent := ent' } targets approx pre e ids = runCalc env targets approx pre e ids := by
  have hent' : ∀ x, (env.ent x = none ∧ ent' x = none) ∨ ∃ a b, env.ent x = some a ∧ ent' x = some b ∧ SameShown env a b ∧ SecondaryApart a ∧
      ∀ v, NeverHidden env x v → ∀ s ∈ a.secondary, v ∉ s.2 := by
    intro x
    rcases hent x with h | ⟨a, b, h1, h2, h⟩
    · exact .inl h
    · exact .inr ⟨a, b, h1, h2, h, hap x a h1, fun v hv s hs => hv a h1 s hs⟩
  have hedges : EdgesOk (fun r => NeverHidden env r.childE r.childV ∧ NeverHidden env r.parentE r.parentV) (buildTrie targets approx) := by
    refine edgesOk_of _ (WF_buildTrie _ _) ?_
    intro p k hk
    rcases hasNode_buildTrie targets approx _ hk with h | ⟨p0, g, full, hp, hpre⟩
    · simp at h
    · have hmem : k ∈ p0 ++ g.path := hpre.subset (by simp)
      rcases List.mem_append.mp hmem with hm | hm
      · exact planned_edges (P := fun r => NeverHidden env r.childE r.childV ∧ NeverHidden env r.parentE r.parentV) hkey.2 hp k hm
      · exact hkey.2 g hp.neededBy k hm
  unfold runCalc
  split
  · rfl
  · rcases hent' e with ⟨h1, h2⟩ | ⟨a, b, h1, h2, h, _⟩
    · simp only [Env.getEnt, h1, h2]
    · simp only [Env.getEnt, h1, h2]
      rw [← h.index]
      rw [calcNode_same env ent' _ (NeverHidden env) hent' _ pre e a.index ids none hedges (hkey.1 a h1)]

end FT
