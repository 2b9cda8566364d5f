import Verif.Lemmas.Graph
import Verif.Lemmas.Feature
/-! # Lemmas about lineage graphs: the recursion -/
namespace FT
open Spec

theorem size_source (f : Feat) : (shownSource f).size ≤ f.size := by
  unfold shownSource
  split
  · rename_i b _ _ hb
    have := Feat.size_dep (f := f) (d := b) (Feat.mem_deps.mpr <| .inl (by rw [hb]; exact .head _))
    omega
  · exact Nat.le_refl _

theorem size_calcFrom {f g : Feat} (h : CalcFrom f g) : g.size < f.size := by
  have := size_source f
  have := Feat.size_dep (f := shownSource f) (d := g) (Feat.mem_deps.mpr h)
  omega

theorem mem_eraseP_or {α : Type} {l : List α} {p : α → Bool} {d : α} (h : d ∈ l) : d ∈ l.eraseP p ∨ p d = true := by
  induction l with
  | nil => simp at h
  | cons x l ih =>
    rw [List.eraseP_cons]
    rcases List.mem_cons.mp h with rfl | h
    · cases hp : p d with
      | true => exact .inr rfl
      | false => exact .inl (.head _)
    · cases hp : p x with
      | true => exact .inl h
      | false =>
        rcases ih h with h | h
        · exact .inl (.tail _ h)
        · exact .inr h

theorem behind_of_calcFrom {t f g : Feat} (hf : Upstream t f) (h : CalcFrom f g) : Upstream t g := by
  obtain ⟨n, hn⟩ := hf
  exact ⟨n + 1, .step hn h⟩

theorem groupby_calcFrom {f g : Feat} (h : graphGroupby (shownSource f) = some g) : CalcFrom f g := by
  unfold graphGroupby at h
  split at h
  · exact .inl (List.mem_of_getLast? h)
  · cases h

theorem inputs_calcFrom {f d : Feat} (h : d ∈ graphInputs (shownSource f)) : CalcFrom f d := by
  unfold graphInputs at h
  split at h
  · simpa [Feat.deps, CalcFrom] using h
  · have := List.mem_of_mem_eraseP h
    simpa [Feat.deps, CalcFrom] using this

theorem calcFrom_cases {t : Feat} (fit : GraphFit t) {f d : Feat} (hf : Upstream t f) (h : CalcFrom f d) :
    d ∈ graphInputs (shownSource f) ∨ graphGroupby (shownSource f) = some d := by
  have hm : d ∈ (shownSource f).deps := by simpa [Feat.deps, CalcFrom] using h
  unfold graphInputs
  cases hg : graphGroupby (shownSource f) with
  | none => exact .inl hm
  | some g =>
    dsimp only
    rcases mem_eraseP_or (p := fun d => decide (d.name ++ d.entity = g.name ++ g.entity)) hm with h' | h'
    · exact .inl h'
    · right
      have hk : ∃ p, (shownSource f).kind = .groupby p ∧ g ∈ (shownSource f).bases := by
        unfold graphGroupby at hg
        split at hg
        · rename_i p hp
          exact ⟨p, hp, List.mem_of_getLast? hg⟩
        · cases hg
      obtain ⟨p, hp, hgm⟩ := hk
      obtain ⟨hw, hsame⟩ := fit.group f hf p hp
      have hdm : d ∈ (shownSource f).bases := by
        rcases h with h | h
        · exact h
        · rw [hw] at h; simp at h
      have he : d.entity = g.entity := (hsame d hdm).trans (hsame g hgm).symm
      have hn : d.name = g.name := by
        have h'' : d.name ++ d.entity = g.name ++ g.entity := by simpa using h'
        rw [he] at h''
        have h3 := congrArg String.toList h''
        rw [String.toList_append, String.toList_append] at h3
        exact String.toList_inj.mp (List.append_cancel_right h3)
      rw [fit.names d g (behind_of_calcFrom hf h) (behind_of_calcFrom hf (.inl hgm)) he hn]

theorem graphVisit_spec (P : Feat → String) {t : Feat} (fit : GraphFit t) : ∀ n layer f s, f.size ≤ n → UpstreamAt t layer f → GInv P t s →
    GExt P t s (graphVisit P n layer f s).2 ∧ HasRow (graphVisit P n layer f s).2 f.entity f.name := by
  intro n
  induction n with
  | zero =>
    intro layer f s hs
    have := f.size_pos
    omega
  | succ n ih =>
    intro layer f s hs hf hi
    have hb : Upstream t f := ⟨layer, hf⟩
    unfold graphVisit
    dsimp only
    by_cases hc : (s.vars.contains (f.entity, f.name) || s.feats.contains (f.entity, f.name)) = true
    · rw [if_pos hc]
      have hrow : HasRow s f.entity f.name := by
        simpa [HasRow] using hc
      refine ⟨⟨⟨fun _ h => mem_graphAdd.mpr (.inl h), fun _ => id, fun _ => id, fun _ => id, fun _ => id, fun _ => id⟩, ?_, fun _ _ h1 h2 => absurd h1 h2⟩, hrow⟩
      intro i
      refine { i with rows := fun e n h => mem_graphAdd.mpr (.inl (i.rows e n h)), entities := ?_, nodups := ⟨nodup_graphAdd i.nodups.1, i.nodups.2⟩ }
      intro e he
      rcases mem_graphAdd.mp he with he | rfl
      · exact i.entities e he
      · exact ⟨f.name, hrow⟩
    · rw [if_neg hc]
      have hnew : ¬ HasRow s f.entity f.name := by
        simpa [HasRow] using hc
      obtain ⟨m1, m2, m3⟩ := ext_mark (P := P) (s := s) hb
      generalize (if f.isIdentity then { s with entities := graphAdd s.entities f.entity, vars := graphAdd s.vars (f.entity, f.name) }
        else { s with entities := graphAdd s.entities f.entity, feats := graphAdd s.feats (f.entity, f.name) } : Graph) = s1 at m1 m2 m3 ⊢
      have i1 := m2 hi
      rw [graphCore_eq]
      obtain ⟨e2, o2, l2, d2⟩ := stagePrim (P := P) hf s1
      rw [show GNode.row f.entity f.name = featRow f from rfl]
      generalize graphAddPrim P layer (shownSource f) (featRow f) s1 = x2 at e2 o2 l2 d2 ⊢
      obtain ⟨e3, o3, l3, d3⟩ := stageLinks (P := P) fit hb f.path (fun _ h => h) x2 o2 l2
      rw [← path_source]
      generalize f.path.foldl (graphLink (shownSource f).name) x2 = x3 at e3 o3 l3 d3 ⊢
      have i3 := e3.inv (e2.inv i1)
      have hstage : ∃ x4 : GNode × Graph, graphGroupStage (graphVisit P n (layer + 1)) (shownSource f) x3 = x4 ∧
          GExt P t x3.2 x4.2 ∧ Own f x4.1 ∧ Leads x4.2 x4.1 (featRow f) ∧
          ∀ g, graphGroupby (shownSource f) = some g → HasRow x4.2 g.entity g.name ∧ Leads x4.2 (featRow g) (featRow f) := by
        unfold graphGroupStage
        cases hg : graphGroupby (shownSource f) with
        | none => exact ⟨x3, rfl, .refl P t _, o3, l3, fun _ h => by cases h⟩
        | some g =>
          have hgc := groupby_calcFrom hg
          obtain ⟨v1, v2⟩ := ih (layer + 1) g x3.2 (by have := size_calcFrom hgc; omega) (.step hf hgc) i3
          obtain ⟨g1, g2, g3, g4⟩ := stageGroup (P := P) fit hb hgc (behind_of_calcFrom hb hgc) x3.1 _ v2 o3 (Leads.mono v1.sub l3)
          refine ⟨_, rfl, v1.trans g1, g2, g3, ?_⟩
          intro g' hg'
          cases hg'
          exact ⟨HasRow.mono g1.sub v2, g4⟩
      obtain ⟨x4, hx4, e4, o4, l4, d4⟩ := hstage
      rw [hx4]
      obtain ⟨e5, d5⟩ := stageLoop (P := P) fit hb (graphVisit P n (layer + 1)) x4.1 (graphInputs (shownSource f)) (fun d h => inputs_calcFrom h)
        (fun d hd s' hs' => ih (layer + 1) d s' (by have := size_calcFrom (inputs_calcFrom hd); omega) (.step hf (inputs_calcFrom hd)) hs')
        (layer, x4.2) (e4.inv i3) o4 l4
      generalize (graphLoop (graphVisit P n (layer + 1)) x4.1 (graphInputs (shownSource f)) (layer, x4.2)).2 = s5 at e5 d5 ⊢
      have e15 := ((e2.trans e3).trans e4).trans e5
      have e35 := e4.trans e5
      refine ⟨⟨m1.trans e15.sub, fun i => e15.inv (m2 i), ?_⟩, HasRow.mono e15.sub ((m3 _ _).mpr (.inr rfl))⟩
      intro h hh h1 h2
      by_cases hs1 : HasRow s1 h.entity h.name
      · rcases (m3 _ _).mp hs1 with h3 | h3
        · exact absurd h3 h2
        · simp only [Prod.mk.injEq] at h3
          have e := fit.names h f hh hb h3.1 h3.2
          subst e
          constructor
          · intro g hg
            rcases calcFrom_cases fit hb hg with hg | hg
            · exact d5 g hg
            · obtain ⟨a, b⟩ := d4 g hg
              exact ⟨HasRow.mono e5.sub a, Leads.mono e5.sub b⟩
          · intro st hst
            obtain ⟨a, b, c⟩ := d3 st hst
            refine ⟨HasRow.mono e35.sub a, fun h => Leads.mono e35.sub (b h), fun h => ?_⟩
            obtain ⟨x, c1, c2⟩ := c h
            exact ⟨x, e35.sub.dotted _ c1, Leads.mono e35.sub c2⟩
          · intro p hp
            obtain ⟨a, b⟩ := d2 p hp
            have e25 := e3.trans e35
            exact ⟨layer, hf, e25.sub.prims _ a, e25.sub.solid _ b⟩
      · exact e15.drawn h hh h1 hs1

theorem ginv_empty (P : Feat → String) (t : Feat) : GInv P t ⟨[], [], [], [], [], [], []⟩ where
  vars := by simp
  feats := by simp
  solid := by simp
  dotted := by simp
  prims := by simp
  boxes := by simp
  labels := by simp
  rows := by simp [HasRow]
  entities := by simp
  nodups := by simp

theorem featureGraph_inv (P : Feat → String) {t : Feat} (fit : GraphFit t) : GInv P t (featureGraph P t).2 :=
  (graphVisit_spec P fit t.size 0 t _ (Nat.le_refl _) .self (ginv_empty P t)).1.inv (ginv_empty P t)

/-- Every feature upstream of the target has a row and is drawn. -/
theorem featureGraph_drawn (P : Feat → String) {t : Feat} (fit : GraphFit t) {f : Feat} (h : Upstream t f) :
    HasRow (featureGraph P t).2 f.entity f.name ∧ Drawn P t (featureGraph P t).2 f := by
  obtain ⟨e, r⟩ := graphVisit_spec P fit t.size 0 t _ (Nat.le_refl _) .self (ginv_empty P t)
  have key : ∀ f, Upstream t f → HasRow (featureGraph P t).2 f.entity f.name → Drawn P t (featureGraph P t).2 f :=
    fun f hf hr => e.drawn f hf hr (by simp [HasRow])
  obtain ⟨n, hn⟩ := h
  induction hn with
  | self => exact ⟨r, key t ⟨0, .self⟩ r⟩
  | step hm hc ih =>
    have hr := (ih.2.inputs _ hc).1
    exact ⟨hr, key _ (behind_of_calcFrom ⟨_, hm⟩ hc) hr⟩

end FT
