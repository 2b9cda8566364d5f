import Verif.Lemmas.Graph2
/-! # Lemmas about lineage graphs: nothing else is drawn, tables and steps -/
namespace FT
open Spec

theorem Spec.Upstream.trans {a b c : Feat} (h : Upstream a b) (k : Upstream b c) : Upstream a c := by
  obtain ⟨n, hn⟩ := k
  induction hn with
  | self => exact h
  | step _ hc ih => exact behind_of_calcFrom ih hc

/-- Where a walk to a feature can have come from. -/
def GoodNode (f : Feat) (a : GNode) : Prop :=
  (∃ g, Upstream f g ∧ (a = featRow g ∨ (g.isIdentity = false ∧ Inner g a))) ∨
  ∃ g, Upstream f g ∧ ∃ st ∈ g.path, st.1 = false ∧ a = .row st.2.childE st.2.childV

theorem inner_congr {f g : Feat} (h : shownSource f = shownSource g) {a : GNode} (hi : Inner f a) : Inner g a := by
  cases a <;> simp_all [Inner]

theorem leads_good {P : Feat → String} {t : Feat} (fit : GraphFit t)
    (hn : ∀ f g, Upstream t f → Upstream t g → f.isIdentity = false → g.isIdentity = false → (shownSource f).name = (shownSource g).name → shownSource f = shownSource g)
    {s : Graph} (hi : GInv P t s) {f : Feat} (hf : Upstream t f) {a b : GNode} (l : Leads s a b) (hb : GoodNode f b) : GoodNode f a := by
  induction l with
  | refl => exact hb
  | @arrow a b c e _ ih =>
    have hgood := ih hb
    obtain ⟨f', hf', hni, hown, hfrom⟩ := hi.solid _ e
    dsimp only at hown hfrom
    rcases hgood with ⟨g, hg, hgb⟩ | ⟨g, hg, st, hst, _, hrow⟩
    · have hgt : Upstream t g := hf.trans hg
      have hsame : shownSource f' = shownSource g ∧ g.isIdentity = false := by
        rcases hgb with rfl | ⟨hgi, hin⟩
        · rcases hown with h | h
          · simp only [featRow, GNode.row.injEq] at h
            have := fit.names f' g hf' hgt h.1.symm h.2.symm
            subst this
            exact ⟨rfl, hni⟩
          · exact absurd h (by simp [featRow, Inner])
        · refine ⟨?_, hgi⟩
          apply hn f' g hf' hgt hni hgi
          rcases hown with h | h
          · subst h; simp [featRow, Inner] at hin
          · cases b with
            | row => simp [Inner] at h
            | prim => simp only [Inner] at h hin; rw [← h, ← hin]
            | group => simp only [Inner] at h hin; rw [← h, ← hin]
      rcases hfrom with h | ⟨g', hg', rfl⟩
      · exact .inl ⟨g, hg, .inr ⟨hsame.2, inner_congr hsame.1 h⟩⟩
      · refine .inl ⟨g', behind_of_calcFrom hg ?_, .inl rfl⟩
        unfold CalcFrom at hg' ⊢
        rw [← hsame.1]
        exact hg'
    · subst hrow
      rcases hown with h | h
      · simp only [featRow, GNode.row.injEq] at h
        have := fit.links g f' st (hf.trans hg) hf' hst h.1.symm h.2.symm
        rw [hni] at this
        cases this
      · simp [Inner] at h
  | @box a n c v d e _ ih =>
    have hgood := ih hb
    obtain ⟨f', hf', hni, h⟩ := hi.dotted _ e
    dsimp only at h
    rcases h with ⟨c', v', h1, h2, h3⟩ | ⟨_, st, _, _, h⟩
    · rcases hgood with ⟨g, hg, hgb⟩ | ⟨g, hg, st, hst, _, hrow⟩
      · rcases hgb with h | ⟨hgi, hin⟩
        · simp [featRow] at h
        · have hgt : Upstream t g := hf.trans hg
          simp only [GNode.group.injEq] at h2
          simp only [Inner] at hin
          have hsame := hn f' g hf' hgt hni hgi (by rw [← h2.1, ← hin])
          subst h1
          rcases h3 with ⟨st, hst, hs1, hs2⟩ | ⟨g', hg', hk⟩
          · simp only [Prod.mk.injEq] at hs2
            refine .inr ⟨g, hg, st, ?_, hs1, by rw [hs2.1, hs2.2]⟩
            rw [path_source] at hst ⊢
            rw [← hsame]; exact hst
          · simp only [Prod.mk.injEq] at hk
            refine .inl ⟨g', behind_of_calcFrom hg ?_, .inl (by rw [hk.1, hk.2]; rfl)⟩
            unfold CalcFrom at hg' ⊢
            rw [← hsame]
            exact hg'
      · cases hrow
    · cases h

theorem vars_feats_disjoint {P : Feat → String} {t : Feat} (fit : GraphFit t) {s : Graph} (hi : GInv P t s) {k : String × String}
    (h1 : k ∈ s.vars) (h2 : k ∈ s.feats) : False := by
  obtain ⟨f, hf, hni, rfl⟩ := hi.feats k h2
  rcases hi.vars _ h1 with ⟨g, hg, hgi, he⟩ | ⟨g, hg, st, hst, he⟩
  · simp only [Prod.mk.injEq] at he
    have := fit.names f g hf hg he.1 he.2
    subst this
    rw [hni] at hgi; cases hgi
  · simp only [Prod.mk.injEq] at he
    have := fit.links g f st hg hf hst he.1 he.2
    rw [hni] at this; cases this

theorem visit_identity (P : Feat → String) {t : Feat} (fit : GraphFit t) {f : Feat} (hb : Upstream t f) (hi : f.isIdentity = true)
    (n layer : Nat) (s : Graph) : (graphVisit P n layer f s).2.prims = s.prims := by
  cases n with
  | zero => rfl
  | succ n =>
    unfold graphVisit
    dsimp only
    split
    · rfl
    · rw [graphCore_eq]
      have h1 : graphAddPrim P layer (shownSource f) = fun b s => (b, s) := by
        funext b s'
        unfold graphAddPrim
        rw [prim_identity P hi]
      have h2 : (shownSource f).kind.path = [] := by rw [← path_source, gpath_identity hi]
      have h3 : graphGroupby (shownSource f) = none := by
        rw [source_identity hi]
        unfold Feat.isIdentity at hi
        unfold graphGroupby
        cases hk : f.kind <;> simp_all
      have h4 : graphInputs (shownSource f) = [] := by
        unfold graphInputs
        rw [h3]
        dsimp only
        rw [source_identity hi]
        simp [Feat.deps, (fit.leaf f hb hi).1, (fit.leaf f hb hi).2]
      rw [h1, h2, h4]
      simp only [graphGroupStage, h3, List.foldl_nil, graphLoop]

theorem loop_depth {visit : Feat → Graph → Nat × Graph} {layer : Nat} (base : GNode) (ds : List Feat) (A : GDiamond → Prop)
    (hv : ∀ d ∈ ds, ∀ s, layer + 1 ≤ (visit d s).1 ∧ ∀ x ∈ (visit d s).2.prims, x ∈ s.prims ∨ x.layer < (visit d s).1)
    (x : Nat × Graph) (hx : ∀ d ∈ x.2.prims, A d ∨ d.layer < x.1) :
    x.1 ≤ (graphLoop visit base ds x).1 ∧ (ds ≠ [] → layer + 1 ≤ (graphLoop visit base ds x).1) ∧
    ∀ d ∈ (graphLoop visit base ds x).2.prims, A d ∨ d.layer < (graphLoop visit base ds x).1 := by
  induction ds generalizing x with
  | nil => exact ⟨Nat.le_refl _, by simp, hx⟩
  | cons d ds ih =>
    obtain ⟨v1, v2⟩ := hv d (.head _) x.2
    unfold graphLoop
    dsimp only
    obtain ⟨h1, h2, h3⟩ := ih (fun d h => hv d (.tail _ h))
      (max (visit d x.2).1 x.1, { (visit d x.2).2 with solid := (visit d x.2).2.solid ++ [(.row d.entity d.name, base)] }) (by
        intro y hy
        dsimp only at hy ⊢
        rcases v2 y hy with h | h
        · rcases hx y h with h | h
          · exact .inl h
          · right; omega
        · right; omega)
    dsimp only at h1
    refine ⟨by omega, fun _ => by omega, h3⟩

theorem foldl_link_prims (n : String) (l : List (Bool × Relationship)) (x : GNode × Graph) : (l.foldl (graphLink n) x).2.prims = x.2.prims := by
  induction l generalizing x with
  | nil => rfl
  | cons st l ih =>
    simp only [List.foldl_cons]
    rw [ih]
    unfold graphLink
    dsimp only
    split <;> rfl

theorem visit_depth (P : Feat → String) {t : Feat} (fit : GraphFit t)
    (hg : ∀ f g, Upstream t f → graphGroupby (shownSource f) = some g → g.isIdentity = true)
    (hin : ∀ f p, Upstream t f → graphPrim P (shownSource f) = some p → graphInputs (shownSource f) ≠ []) :
    ∀ n layer f s, f.size ≤ n → Upstream t f → layer ≤ (graphVisit P n layer f s).1 ∧
      ∀ x ∈ (graphVisit P n layer f s).2.prims, x ∈ s.prims ∨ x.layer < (graphVisit P n layer f s).1 := by
  intro n
  induction n with
  | zero => intro layer f s hs; have := f.size_pos; omega
  | succ n ih =>
    intro layer f s hs hb
    unfold graphVisit
    dsimp only
    split
    · exact ⟨Nat.le_refl _, fun x hx => .inl hx⟩
    · rw [graphCore_eq]
      have hbase : ∀ s1 : Graph, s1.prims = s.prims → ∀ base : GNode,
          let x3 := graphGroupStage (graphVisit P n (layer + 1)) (shownSource f)
            (List.foldl (graphLink (shownSource f).name) (graphAddPrim P layer (shownSource f) base s1) (shownSource f).kind.path)
          layer ≤ (graphLoop (graphVisit P n (layer + 1)) x3.1 (graphInputs (shownSource f)) (layer, x3.2)).1 ∧
          ∀ x ∈ (graphLoop (graphVisit P n (layer + 1)) x3.1 (graphInputs (shownSource f)) (layer, x3.2)).2.prims,
            x ∈ s.prims ∨ x.layer < (graphLoop (graphVisit P n (layer + 1)) x3.1 (graphInputs (shownSource f)) (layer, x3.2)).1 := by
        intro s1 hs1 base x3
        have hp : ∀ x ∈ x3.2.prims, x ∈ s.prims ∨ (x.layer = layer ∧ ∃ p, graphPrim P (shownSource f) = some p) := by
          have h0 : x3.2.prims = (graphAddPrim P layer (shownSource f) base s1).2.prims := by
            have : x3.2.prims = (List.foldl (graphLink (shownSource f).name) (graphAddPrim P layer (shownSource f) base s1) (shownSource f).kind.path).2.prims := by
              simp only [x3, graphGroupStage]
              cases hgb : graphGroupby (shownSource f) with
              | none => rfl
              | some g =>
                dsimp only
                refine Eq.trans ?_ (visit_identity P fit (behind_of_calcFrom hb (groupby_calcFrom hgb)) (hg f g hb hgb) n (layer + 1) _)
                unfold graphAddGroup
                dsimp only
                split <;> rfl
            rw [this, foldl_link_prims]
          rw [h0]
          unfold graphAddPrim
          cases hp : graphPrim P (shownSource f) with
          | none => intro x hx; left; rw [← hs1]; exact hx
          | some p =>
            intro x hx
            dsimp only at hx
            rcases List.mem_append.mp hx with hx | hx
            · left; rw [← hs1]; exact hx
            · simp only [List.mem_singleton] at hx
              subst hx
              exact .inr ⟨rfl, p, rfl⟩
        have key := loop_depth (layer := layer) x3.1 (graphInputs (shownSource f)) (fun x => x ∈ s.prims ∨ (x.layer = layer ∧ ∃ p, graphPrim P (shownSource f) = some p))
          (fun d hd s' => ih (layer + 1) d s' (by have := size_calcFrom (inputs_calcFrom hd); omega) (behind_of_calcFrom hb (inputs_calcFrom hd)))
          (layer, x3.2) (fun x hx => .inl (hp x hx))
        obtain ⟨k1, k2, k3⟩ := key
        refine ⟨k1, ?_⟩
        intro x hx
        rcases k3 x hx with (h | ⟨h, p, hp⟩) | h
        · exact .inl h
        · right
          have := k2 (hin f p hb hp)
          omega
        · exact .inr h
      have hprims : (if f.isIdentity = true then
            { s with entities := graphAdd s.entities f.entity, vars := graphAdd s.vars (f.entity, f.name) }
          else { s with entities := graphAdd s.entities f.entity, feats := graphAdd s.feats (f.entity, f.name) } : Graph).prims = s.prims := by
        split <;> rfl
      exact hbase _ hprims _

theorem mem_rows (L : List String) (b : String → Bool) (n : String) : (∃ row ∈ L.map (fun v => (⟨v, false, b v⟩ : GRow)), row.text = n) ↔ n ∈ L := by
  constructor
  · rintro ⟨row, h, rfl⟩
    obtain ⟨m, hm, rfl⟩ := List.mem_map.mp h
    exact hm
  · intro h
    exact ⟨_, List.mem_map.mpr ⟨n, h, rfl⟩, rfl⟩

end FT
