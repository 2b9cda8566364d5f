import Verif.Spec.Graph
/-! # Lemmas about lineage graphs -/
namespace FT
open Spec

theorem graphCore_eq (f : Feat) : graphCore f = shownSource f := rfl

theorem mem_graphAdd {α : Type} [BEq α] [LawfulBEq α] {l : List α} {x y : α} : y ∈ graphAdd l x ↔ y ∈ l ∨ y = x := by
  unfold graphAdd
  split
  · rename_i h
    constructor
    · exact .inl
    · rintro (h' | rfl)
      · exact h'
      · simpa using h
  · simp

theorem nodup_graphAdd {α : Type} [BEq α] [LawfulBEq α] {l : List α} {x : α} (h : l.Nodup) : (graphAdd l x).Nodup := by
  unfold graphAdd
  split
  · exact h
  · rename_i hc
    rw [List.nodup_append]
    refine ⟨h, by simp, ?_⟩
    intro a ha b hb e
    simp only [List.mem_singleton] at hb
    subst hb; subst e
    exact hc (by simpa using ha)

theorem graphPrim_iff (P : Feat → String) (f : Feat) (p : String) : graphPrim P f = some p ↔ DiamondName P f p := by
  unfold graphPrim DiamondName
  cases f.kind <;> simp only [reduceCtorEq, Option.some.injEq]
  case direct => exact ⟨fun h => h.symm, fun h => h.symm⟩
  all_goals
    by_cases h : P f = ""
    · simp [h]
    · simp only [h, if_false, Option.some.injEq]
      constructor
      · rintro rfl; exact ⟨rfl, h⟩
      · rintro ⟨rfl, _⟩; rfl

theorem graphType_kind {P : Feat → String} {f : Feat} {p : String} (h : graphPrim P f = some p) : DiamondKind f (graphType f) := by
  unfold graphPrim at h
  unfold graphType DiamondKind
  cases hk : f.kind <;> simp_all

theorem source_identity {f : Feat} (h : f.isIdentity = true) : shownSource f = f := by
  unfold Feat.isIdentity at h
  unfold shownSource
  split <;> simp_all

theorem path_source (f : Feat) : f.path = (shownSource f).kind.path := by
  unfold Feat.path shownSource
  split <;> simp_all

theorem gpath_identity {f : Feat} (h : f.isIdentity = true) : f.path = [] := by
  rw [path_source, source_identity h]
  unfold Feat.isIdentity at h
  cases hk : f.kind <;> simp_all [Kind.path]

theorem prim_identity {f : Feat} (P : Feat → String) (h : f.isIdentity = true) : graphPrim P (shownSource f) = none := by
  rw [source_identity h]
  unfold Feat.isIdentity at h
  unfold graphPrim
  cases hk : f.kind <;> simp_all

structure GSub (s s' : Graph) : Prop where
  entities : ∀ x ∈ s.entities, x ∈ s'.entities
  vars : ∀ x ∈ s.vars, x ∈ s'.vars
  feats : ∀ x ∈ s.feats, x ∈ s'.feats
  solid : ∀ x ∈ s.solid, x ∈ s'.solid
  dotted : ∀ x ∈ s.dotted, x ∈ s'.dotted
  prims : ∀ x ∈ s.prims, x ∈ s'.prims

theorem GSub.refl (s : Graph) : GSub s s := ⟨fun _ => id, fun _ => id, fun _ => id, fun _ => id, fun _ => id, fun _ => id⟩

theorem GSub.trans {a b c : Graph} (h : GSub a b) (k : GSub b c) : GSub a c :=
  ⟨fun x hx => k.entities x (h.entities x hx), fun x hx => k.vars x (h.vars x hx), fun x hx => k.feats x (h.feats x hx),
   fun x hx => k.solid x (h.solid x hx), fun x hx => k.dotted x (h.dotted x hx), fun x hx => k.prims x (h.prims x hx)⟩

theorem Spec.HasRow.mono {a b : Graph} (h : GSub a b) {e n : String} : HasRow a e n → HasRow b e n
  | .inl x => .inl (h.vars _ x)
  | .inr x => .inr (h.feats _ x)

theorem Spec.Leads.mono {a b : Graph} (h : GSub a b) {x y : GNode} (l : Leads a x y) : Leads b x y := by
  induction l with
  | refl => exact .refl
  | arrow e _ ih => exact .arrow (h.solid _ e) ih
  | box e _ ih => exact .box (h.dotted _ e) ih

theorem Spec.Leads.trans {s : Graph} {x y z : GNode} (l : Leads s x y) (m : Leads s y z) : Leads s x z := by
  induction l with
  | refl => exact m
  | arrow e _ ih => exact .arrow e (ih m)
  | box e _ ih => exact .box e (ih m)

section
variable (P : Feat → String) (t : Feat)

/-- All of what is drawn for a feature. -/
structure Drawn (s : Graph) (h : Feat) : Prop where
  inputs : ∀ g, CalcFrom h g → HasRow s g.entity g.name ∧ Leads s (featRow g) (featRow h)
  links : ∀ step ∈ h.path, HasRow s step.2.childE step.2.childV ∧
    (step.1 = false → Leads s (.row step.2.childE step.2.childV) (featRow h)) ∧
    (step.1 = true → ∃ a, (a, .row step.2.childE step.2.childV) ∈ s.dotted ∧ Leads s a (featRow h))
  prim : ∀ p, graphPrim P (shownSource h) = some p → ∃ layer, UpstreamAt t layer h ∧
    (⟨.prim layer (shownSource h).name p, p.toUpper, layer, graphType (shownSource h)⟩ : GDiamond) ∈ s.prims ∧
    (.prim layer (shownSource h).name p, featRow h) ∈ s.solid

theorem Drawn.mono {a b : Graph} (hs : GSub a b) {h : Feat} (d : Drawn P t a h) : Drawn P t b h where
  inputs := fun g hg => ⟨HasRow.mono hs (d.inputs g hg).1, Leads.mono hs (d.inputs g hg).2⟩
  links := fun st hst => ⟨HasRow.mono hs (d.links st hst).1, fun h => Leads.mono hs ((d.links st hst).2.1 h), fun h => by
    obtain ⟨a, h1, h2⟩ := (d.links st hst).2.2 h
    exact ⟨a, hs.dotted _ h1, Leads.mono hs h2⟩⟩
  prim := fun p hp => by
    obtain ⟨l, h1, h2, h3⟩ := d.prim p hp
    exact ⟨l, h1, hs.prims _ h2, hs.solid _ h3⟩

/-- Nodes between the row of a feature and what it is calculated from. -/
def Inner (f : Feat) : GNode → Prop
  | .row _ _ => False
  | .prim _ n _ => n = (shownSource f).name
  | .group n _ _ => n = (shownSource f).name

def Own (f : Feat) (a : GNode) : Prop := a = featRow f ∨ Inner f a

/-- A link column of a feature upstream of the target. -/
def LinkKey (f : Feat) (k : String × String) : Prop := ∃ step ∈ f.path, k = (step.2.childE, step.2.childV)

def GoodArrow (e : GNode × GNode) : Prop :=
  ∃ f, Upstream t f ∧ f.isIdentity = false ∧ Own f e.2 ∧ (Inner f e.1 ∨ ∃ g, CalcFrom f g ∧ e.1 = featRow g)

def GoodDotted (e : GNode × GNode) : Prop :=
  ∃ f, Upstream t f ∧ f.isIdentity = false ∧
    ((∃ c v, e.1 = .row c v ∧ e.2 = .group (shownSource f).name c v ∧
        ((∃ step ∈ f.path, step.1 = false ∧ (c, v) = (step.2.childE, step.2.childV)) ∨ ∃ g, CalcFrom f g ∧ (c, v) = (g.entity, g.name))) ∨
     (Own f e.1 ∧ ∃ step ∈ f.path, step.1 = true ∧ e.2 = .row step.2.childE step.2.childV))

def GoodPrim (d : GDiamond) : Prop :=
  ∃ f p, UpstreamAt t d.layer f ∧ graphPrim P (shownSource f) = some p ∧
    d = ⟨.prim d.layer (shownSource f).name p, p.toUpper, d.layer, graphType (shownSource f)⟩

structure GInv (s : Graph) : Prop where
  vars : ∀ k ∈ s.vars, (∃ f, Upstream t f ∧ f.isIdentity = true ∧ k = (f.entity, f.name)) ∨ ∃ f, Upstream t f ∧ LinkKey f k
  feats : ∀ k ∈ s.feats, ∃ f, Upstream t f ∧ f.isIdentity = false ∧ k = (f.entity, f.name)
  solid : ∀ e ∈ s.solid, GoodArrow t e
  dotted : ∀ e ∈ s.dotted, GoodDotted t e
  prims : ∀ d ∈ s.prims, GoodPrim P t d
  boxes : ∀ x ∈ s.groups, ∃ f e, Upstream t f ∧ f.isIdentity = false ∧ x.1 = .group (shownSource f).name e x.2
  labels : ∀ e ∈ s.dotted, ∀ n c v, e.2 = .group n c v → (.group n c v, v) ∈ s.groups
  rows : ∀ e n, HasRow s e n → e ∈ s.entities
  entities : ∀ e ∈ s.entities, ∃ n, HasRow s e n
  nodups : s.entities.Nodup ∧ s.vars.Nodup ∧ s.feats.Nodup

/-- Growing: nothing goes, invariants stay, and features whose row is new are drawn. -/
structure GExt (s s' : Graph) : Prop where
  sub : GSub s s'
  inv : GInv P t s → GInv P t s'
  drawn : ∀ h, Upstream t h → HasRow s' h.entity h.name → ¬ HasRow s h.entity h.name → Drawn P t s' h

theorem GExt.refl (s : Graph) : GExt P t s s := ⟨.refl s, id, fun _ _ h1 h2 => absurd h1 h2⟩

variable {P t}

theorem GExt.trans {a b c : Graph} (h : GExt P t a b) (k : GExt P t b c) : GExt P t a c where
  sub := h.sub.trans k.sub
  inv := fun i => k.inv (h.inv i)
  drawn := fun f hf h1 h2 => by
    by_cases hb : HasRow b f.entity f.name
    · exact (h.drawn f hf hb h2).mono P t k.sub
    · exact k.drawn f hf h1 hb

theorem drawn_identity (fit : GraphFit t) {h : Feat} (hb : Upstream t h) (hi : h.isIdentity = true) (s : Graph) : Drawn P t s h where
  inputs := fun g hg => by
    unfold CalcFrom at hg
    rw [source_identity hi, (fit.leaf h hb hi).1, (fit.leaf h hb hi).2] at hg
    simp at hg
  links := fun st hst => by rw [gpath_identity hi] at hst; simp at hst
  prim := fun p hp => by rw [prim_identity P hi] at hp; cases hp

theorem ext_arrow {s : Graph} {e : GNode × GNode} (he : GoodArrow t e) : GExt P t s { s with solid := s.solid ++ [e] } where
  sub := ⟨fun _ => id, fun _ => id, fun _ => id, fun _ h => List.mem_append_left _ h, fun _ => id, fun _ => id⟩
  inv := fun i => { i with
    solid := by
      intro x hx
      rcases List.mem_append.mp hx with hx | hx
      · exact i.solid x hx
      · simp only [List.mem_singleton] at hx; subst hx; exact he }
  drawn := fun _ _ h1 h2 => absurd h1 h2

theorem ext_dotted {s : Graph} {e : GNode × GNode} (he : GoodDotted t e) (hl : ∀ n c v, e.2 = .group n c v → (.group n c v, v) ∈ s.groups) : GExt P t s { s with dotted := s.dotted ++ [e] } where
  sub := ⟨fun _ => id, fun _ => id, fun _ => id, fun _ => id, fun _ h => List.mem_append_left _ h, fun _ => id⟩
  inv := fun i => { i with
    dotted := by
      intro x hx
      rcases List.mem_append.mp hx with hx | hx
      · exact i.dotted x hx
      · simp only [List.mem_singleton] at hx; subst hx; exact he
    labels := by
      intro x hx
      rcases List.mem_append.mp hx with hx | hx
      · exact i.labels x hx
      · simp only [List.mem_singleton] at hx; subst hx; exact hl }
  drawn := fun _ _ h1 h2 => absurd h1 h2

theorem ext_prim {s : Graph} {e : GDiamond} (he : GoodPrim P t e) : GExt P t s { s with prims := s.prims ++ [e] } where
  sub := ⟨fun _ => id, fun _ => id, fun _ => id, fun _ => id, fun _ => id, fun _ h => List.mem_append_left _ h⟩
  inv := fun i => { i with
    prims := by
      intro x hx
      rcases List.mem_append.mp hx with hx | hx
      · exact i.prims x hx
      · simp only [List.mem_singleton] at hx; subst hx; exact he }
  drawn := fun _ _ h1 h2 => absurd h1 h2

theorem ext_group {s : Graph} {e : GNode × String} (he : ∃ f c, Upstream t f ∧ f.isIdentity = false ∧ e.1 = .group (shownSource f).name c e.2) : GExt P t s { s with groups := s.groups ++ [e] } where
  sub := ⟨fun _ => id, fun _ => id, fun _ => id, fun _ => id, fun _ => id, fun _ => id⟩
  inv := fun i => { i with
    boxes := by
      intro x hx
      rcases List.mem_append.mp hx with hx | hx
      · exact i.boxes x hx
      · simp only [List.mem_singleton] at hx; subst hx; exact he
    labels := fun x hx n c v h => List.mem_append_left _ (i.labels x hx n c v h) }
  drawn := fun _ _ h1 h2 => absurd h1 h2

/-- The mark of a link column. -/
theorem ext_link (fit : GraphFit t) {s : Graph} {f : Feat} (hf : Upstream t f) {step : Bool × Relationship} (hs : step ∈ f.path) :
    GExt P t s { s with entities := graphAdd s.entities step.2.childE, vars := graphAdd s.vars (step.2.childE, step.2.childV) } where
  sub := ⟨fun _ h => mem_graphAdd.mpr (.inl h), fun _ h => mem_graphAdd.mpr (.inl h), fun _ => id, fun _ => id, fun _ => id, fun _ => id⟩
  inv := fun i => { i with
    vars := by
      intro k hk
      rcases mem_graphAdd.mp hk with hk | rfl
      · exact i.vars k hk
      · exact .inr ⟨f, hf, step, hs, rfl⟩
    rows := by
      intro e n h
      rw [mem_graphAdd]
      rcases h with h | h
      · rcases mem_graphAdd.mp h with h | h
        · exact .inl (i.rows e n (.inl h))
        · simp only [Prod.mk.injEq] at h; exact .inr h.1
      · exact .inl (i.rows e n (.inr h))
    entities := by
      intro e he
      rcases mem_graphAdd.mp he with he | rfl
      · obtain ⟨n, hn⟩ := i.entities e he
        rcases hn with hn | hn
        · exact ⟨n, .inl (mem_graphAdd.mpr (.inl hn))⟩
        · exact ⟨n, .inr hn⟩
      · exact ⟨step.2.childV, .inl (mem_graphAdd.mpr (.inr rfl))⟩
    nodups := ⟨nodup_graphAdd i.nodups.1, nodup_graphAdd i.nodups.2.1, i.nodups.2.2⟩ }
  drawn := fun h hb h1 h2 => by
    apply drawn_identity fit hb
    rcases h1 with h1 | h1
    · rcases mem_graphAdd.mp h1 with h1 | h1
      · exact absurd (.inl h1) h2
      · simp only [Prod.mk.injEq] at h1
        exact fit.links f h step hf hb hs h1.1 h1.2
    · exact absurd (.inr h1) h2


/-- Marking a feature, which is then not drawn yet. -/
theorem ext_mark {s : Graph} {f : Feat} (hf : Upstream t f) :
    GSub s (if f.isIdentity then { s with entities := graphAdd s.entities f.entity, vars := graphAdd s.vars (f.entity, f.name) }
      else { s with entities := graphAdd s.entities f.entity, feats := graphAdd s.feats (f.entity, f.name) }) ∧
    (GInv P t s → GInv P t (if f.isIdentity then { s with entities := graphAdd s.entities f.entity, vars := graphAdd s.vars (f.entity, f.name) }
      else { s with entities := graphAdd s.entities f.entity, feats := graphAdd s.feats (f.entity, f.name) })) ∧
    (∀ e n, HasRow (if f.isIdentity then { s with entities := graphAdd s.entities f.entity, vars := graphAdd s.vars (f.entity, f.name) }
      else { s with entities := graphAdd s.entities f.entity, feats := graphAdd s.feats (f.entity, f.name) }) e n ↔
        HasRow s e n ∨ (e, n) = (f.entity, f.name)) := by
  have key : ∀ s' : Graph, s'.entities = graphAdd s.entities f.entity →
      (∀ e n, HasRow s' e n ↔ HasRow s e n ∨ (e, n) = (f.entity, f.name)) →
      (∀ i : GInv P t s, (∀ e n, HasRow s' e n → e ∈ s'.entities) ∧ (∀ e ∈ s'.entities, ∃ n, HasRow s' e n)) := by
    intro s' he hr i
    constructor
    · intro e n h
      rw [he, mem_graphAdd]
      rcases (hr e n).mp h with h | h
      · exact .inl (i.rows e n h)
      · simp only [Prod.mk.injEq] at h; exact .inr h.1
    · intro e h
      rw [he, mem_graphAdd] at h
      rcases h with h | rfl
      · obtain ⟨n, hn⟩ := i.entities e h
        exact ⟨n, (hr e n).mpr (.inl hn)⟩
      · exact ⟨f.name, (hr _ _).mpr (.inr rfl)⟩
  by_cases hi : f.isIdentity = true
  · rw [if_pos hi]
    have hr : ∀ e n, HasRow { s with entities := graphAdd s.entities f.entity, vars := graphAdd s.vars (f.entity, f.name) } e n ↔
        HasRow s e n ∨ (e, n) = (f.entity, f.name) := by
      intro e n
      unfold HasRow
      simp only [mem_graphAdd]
      constructor
      · rintro ((h | h) | h)
        · exact .inl (.inl h)
        · exact .inr h
        · exact .inl (.inr h)
      · rintro ((h | h) | h)
        · exact .inl (.inl h)
        · exact .inr h
        · exact .inl (.inr h)
    refine ⟨⟨fun _ h => mem_graphAdd.mpr (.inl h), fun _ h => mem_graphAdd.mpr (.inl h), fun _ => id, fun _ => id, fun _ => id, fun _ => id⟩, ?_, hr⟩
    intro i
    obtain ⟨k1, k2⟩ := key _ rfl hr i
    refine { i with rows := k1, entities := k2, vars := ?_, nodups := ⟨nodup_graphAdd i.nodups.1, nodup_graphAdd i.nodups.2.1, i.nodups.2.2⟩ }
    intro k hk
    rcases mem_graphAdd.mp hk with hk | hk
    · exact i.vars k hk
    · exact .inl ⟨f, hf, hi, hk⟩
  · rw [if_neg hi]
    have hr : ∀ e n, HasRow { s with entities := graphAdd s.entities f.entity, feats := graphAdd s.feats (f.entity, f.name) } e n ↔
        HasRow s e n ∨ (e, n) = (f.entity, f.name) := by
      intro e n
      unfold HasRow
      simp only [mem_graphAdd, or_assoc]
    refine ⟨⟨fun _ h => mem_graphAdd.mpr (.inl h), fun _ => id, fun _ h => mem_graphAdd.mpr (.inl h), fun _ => id, fun _ => id, fun _ => id⟩, ?_, hr⟩
    intro i
    obtain ⟨k1, k2⟩ := key _ rfl hr i
    refine { i with rows := k1, entities := k2, feats := ?_, nodups := ⟨nodup_graphAdd i.nodups.1, i.nodups.2.1, nodup_graphAdd i.nodups.2.2⟩ }
    intro k hk
    rcases mem_graphAdd.mp hk with hk | hk
    · exact i.feats k hk
    · exact ⟨f, hf, by simpa using hi, hk⟩

theorem not_identity_of_prim {f : Feat} {p : String} (h : graphPrim P (shownSource f) = some p) : f.isIdentity = false := by
  by_cases hi : f.isIdentity = true
  · rw [prim_identity P hi] at h; cases h
  · simpa using hi

theorem not_identity_of_path {f : Feat} {st : Bool × Relationship} (h : st ∈ f.path) : f.isIdentity = false := by
  by_cases hi : f.isIdentity = true
  · rw [gpath_identity hi] at h; simp at h
  · simpa using hi

theorem not_identity_of_input (fit : GraphFit t) {f g : Feat} (hf : Upstream t f) (h : CalcFrom f g) : f.isIdentity = false := by
  by_cases hi : f.isIdentity = true
  · unfold CalcFrom at h
    rw [source_identity hi, (fit.leaf f hf hi).1, (fit.leaf f hf hi).2] at h
    simp at h
  · simpa using hi

theorem stagePrim {layer : Nat} {f : Feat} (hf : UpstreamAt t layer f) (s : Graph) :
    GExt P t s (graphAddPrim P layer (shownSource f) (featRow f) s).2 ∧ Own f (graphAddPrim P layer (shownSource f) (featRow f) s).1 ∧
    Leads (graphAddPrim P layer (shownSource f) (featRow f) s).2 (graphAddPrim P layer (shownSource f) (featRow f) s).1 (featRow f) ∧
    ∀ p, graphPrim P (shownSource f) = some p →
      (⟨.prim layer (shownSource f).name p, p.toUpper, layer, graphType (shownSource f)⟩ : GDiamond) ∈ (graphAddPrim P layer (shownSource f) (featRow f) s).2.prims ∧
      (.prim layer (shownSource f).name p, featRow f) ∈ (graphAddPrim P layer (shownSource f) (featRow f) s).2.solid := by
  unfold graphAddPrim
  cases hp : graphPrim P (shownSource f) with
  | none => exact ⟨.refl P t s, .inl rfl, .refl, fun _ h => by cases h⟩
  | some p =>
    dsimp only
    refine ⟨?_, .inr rfl, .arrow (List.mem_append_right _ (.head _)) .refl, ?_⟩
    · refine (ext_prim (e := ⟨.prim layer (shownSource f).name p, p.toUpper, layer, graphType (shownSource f)⟩) ⟨f, p, hf, hp, rfl⟩).trans ?_
      exact ext_arrow (s := { s with prims := _ }) ⟨f, ⟨layer, hf⟩, not_identity_of_prim hp, .inl rfl, .inl rfl⟩
    · intro q hq
      cases hq
      exact ⟨List.mem_append_right _ (.head _), List.mem_append_right _ (.head _)⟩

theorem stageLink (fit : GraphFit t) {f : Feat} (hf : Upstream t f) (st : Bool × Relationship) (hst : st ∈ f.path) (x : GNode × Graph)
    (ho : Own f x.1) (hl : Leads x.2 x.1 (featRow f)) :
    let y := graphLink (shownSource f).name x st
    GExt P t x.2 y.2 ∧ Own f y.1 ∧ Leads y.2 y.1 (featRow f) ∧ HasRow y.2 st.2.childE st.2.childV ∧
      (st.1 = false → Leads y.2 (.row st.2.childE st.2.childV) (featRow f)) ∧
      (st.1 = true → ∃ a, (a, .row st.2.childE st.2.childV) ∈ y.2.dotted ∧ Leads y.2 a (featRow f)) := by
  have hni := not_identity_of_path hst
  have e1 := ext_link (P := P) fit (s := x.2) hf hst
  have hrow : HasRow { x.2 with entities := graphAdd x.2.entities st.2.childE, vars := graphAdd x.2.vars (st.2.childE, st.2.childV) }
      st.2.childE st.2.childV := .inl (mem_graphAdd.mpr (.inr rfl))
  unfold graphLink
  dsimp only
  by_cases h : st.1 = true
  · rw [if_pos h]
    dsimp only
    have e2 := ext_dotted (P := P) (s := { x.2 with entities := graphAdd x.2.entities st.2.childE, vars := graphAdd x.2.vars (st.2.childE, st.2.childV) })
      (e := (x.1, .row st.2.childE st.2.childV)) ⟨f, hf, hni, .inr ⟨ho, st, hst, h, rfl⟩⟩ (fun _ _ _ h => by cases h)
    have e := e1.trans e2
    refine ⟨e, ho, Leads.mono e.sub hl, HasRow.mono e2.sub hrow, ?_, ?_⟩
    · intro h'; rw [h] at h'; cases h'
    · intro _
      exact ⟨x.1, List.mem_append_right _ (.head _), Leads.mono e.sub hl⟩
  · rw [if_neg h]
    dsimp only
    have h' : st.1 = false := by simpa using h
    have e2 := ext_group (P := P) (t := t) (s := { x.2 with entities := graphAdd x.2.entities st.2.childE, vars := graphAdd x.2.vars (st.2.childE, st.2.childV) })
      (e := (.group (shownSource f).name st.2.childE st.2.childV, st.2.childV)) ⟨f, _, hf, hni, rfl⟩
    have e3 := ext_dotted (P := P) (s := { x.2 with entities := graphAdd x.2.entities st.2.childE, vars := graphAdd x.2.vars (st.2.childE, st.2.childV), groups := x.2.groups ++ [(.group (shownSource f).name st.2.childE st.2.childV, st.2.childV)] })
      (e := (.row st.2.childE st.2.childV, .group (shownSource f).name st.2.childE st.2.childV))
      ⟨f, hf, hni, .inl ⟨_, _, rfl, rfl, .inl ⟨st, hst, h', rfl⟩⟩⟩
      (fun _ _ _ h => by cases h; exact List.mem_append_right _ (.head _))
    have e4 := ext_arrow (P := P) (s := { x.2 with entities := graphAdd x.2.entities st.2.childE, vars := graphAdd x.2.vars (st.2.childE, st.2.childV), groups := x.2.groups ++ [(.group (shownSource f).name st.2.childE st.2.childV, st.2.childV)], dotted := x.2.dotted ++ [(.row st.2.childE st.2.childV, .group (shownSource f).name st.2.childE st.2.childV)] })
      (e := (.group (shownSource f).name st.2.childE st.2.childV, x.1)) ⟨f, hf, hni, ho, .inl rfl⟩
    have e := ((e1.trans e2).trans e3).trans e4
    have hlead := Leads.arrow (s := { x.2 with entities := graphAdd x.2.entities st.2.childE, vars := graphAdd x.2.vars (st.2.childE, st.2.childV), groups := x.2.groups ++ [(.group (shownSource f).name st.2.childE st.2.childV, st.2.childV)], dotted := x.2.dotted ++ [(.row st.2.childE st.2.childV, .group (shownSource f).name st.2.childE st.2.childV)], solid := x.2.solid ++ [(.group (shownSource f).name st.2.childE st.2.childV, x.1)] })
      (a := .group (shownSource f).name st.2.childE st.2.childV) (b := x.1) (List.mem_append_right _ (.head _)) (Leads.mono e.sub hl)
    refine ⟨e, .inr rfl, hlead, HasRow.mono ((e2.trans e3).trans e4).sub hrow, ?_, ?_⟩
    · intro _
      exact .box (List.mem_append_right _ (.head _)) hlead
    · intro h'; exact absurd h' h

theorem stageLinks (fit : GraphFit t) {f : Feat} (hf : Upstream t f) (steps : List (Bool × Relationship)) (hs : ∀ st ∈ steps, st ∈ f.path)
    (x : GNode × Graph) (ho : Own f x.1) (hl : Leads x.2 x.1 (featRow f)) :
    GExt P t x.2 (steps.foldl (graphLink (shownSource f).name) x).2 ∧ Own f (steps.foldl (graphLink (shownSource f).name) x).1 ∧
    Leads (steps.foldl (graphLink (shownSource f).name) x).2 (steps.foldl (graphLink (shownSource f).name) x).1 (featRow f) ∧
    ∀ st ∈ steps, HasRow (steps.foldl (graphLink (shownSource f).name) x).2 st.2.childE st.2.childV ∧
      (st.1 = false → Leads (steps.foldl (graphLink (shownSource f).name) x).2 (.row st.2.childE st.2.childV) (featRow f)) ∧
      (st.1 = true → ∃ a, (a, .row st.2.childE st.2.childV) ∈ (steps.foldl (graphLink (shownSource f).name) x).2.dotted ∧
        Leads (steps.foldl (graphLink (shownSource f).name) x).2 a (featRow f)) := by
  induction steps generalizing x with
  | nil => exact ⟨.refl P t _, ho, hl, by simp⟩
  | cons st steps ih =>
    obtain ⟨e1, o1, l1, r1, a1, b1⟩ := stageLink (P := P) fit hf st (hs st (.head _)) x ho hl
    obtain ⟨e2, o2, l2, r2⟩ := ih (fun s h => hs s (.tail _ h)) (graphLink (shownSource f).name x st) o1 l1
    simp only [List.foldl_cons]
    refine ⟨e1.trans e2, o2, l2, ?_⟩
    intro st' hst'
    rcases List.mem_cons.mp hst' with rfl | hst'
    · refine ⟨HasRow.mono e2.sub r1, fun h => Leads.mono e2.sub (a1 h), fun h => ?_⟩
      obtain ⟨a, h1, h2⟩ := b1 h
      exact ⟨a, e2.sub.dotted _ h1, Leads.mono e2.sub h2⟩
    · exact r2 st' hst'

theorem stageGroup (fit : GraphFit t) {f g : Feat} (hf : Upstream t f) (hg : CalcFrom f g) (hgb : Upstream t g) (base : GNode) (s : Graph)
    (hrow : HasRow s g.entity g.name) (ho : Own f base) (hl : Leads s base (featRow f)) :
    let y := graphAddGroup (shownSource f).name g base s
    GExt P t s y.2 ∧ Own f y.1 ∧ Leads y.2 y.1 (featRow f) ∧ Leads y.2 (featRow g) (featRow f) := by
  have hni := not_identity_of_input fit hf hg
  have e1 : GExt P t s (if g.isIdentity then { s with vars := graphAdd s.vars (g.entity, g.name) } else { s with feats := graphAdd s.feats (g.entity, g.name) }) := by
    by_cases hi : g.isIdentity = true
    · rw [if_pos hi]
      have hr : ∀ e n, HasRow { s with vars := graphAdd s.vars (g.entity, g.name) } e n → HasRow s e n := by
        rintro e n (h | h)
        · rcases mem_graphAdd.mp h with h | h
          · exact .inl h
          · simp only [Prod.mk.injEq] at h; obtain ⟨rfl, rfl⟩ := h; exact hrow
        · exact .inr h
      refine ⟨⟨fun _ => id, fun _ h => mem_graphAdd.mpr (.inl h), fun _ => id, fun _ => id, fun _ => id, fun _ => id⟩, ?_, fun h _ h1 h2 => absurd (hr _ _ h1) h2⟩
      intro i
      refine { i with vars := ?_, rows := fun e n h => i.rows e n (hr e n h), entities := ?_, nodups := ⟨i.nodups.1, nodup_graphAdd i.nodups.2.1, i.nodups.2.2⟩ }
      · intro k hk
        rcases mem_graphAdd.mp hk with hk | hk
        · exact i.vars k hk
        · exact .inl ⟨g, hgb, hi, hk⟩
      · intro e he
        obtain ⟨n, h | h⟩ := i.entities e he
        · exact ⟨n, .inl (mem_graphAdd.mpr (.inl h))⟩
        · exact ⟨n, .inr h⟩
    · rw [if_neg hi]
      have hr : ∀ e n, HasRow { s with feats := graphAdd s.feats (g.entity, g.name) } e n → HasRow s e n := by
        rintro e n (h | h)
        · exact .inl h
        · rcases mem_graphAdd.mp h with h | h
          · exact .inr h
          · simp only [Prod.mk.injEq] at h; obtain ⟨rfl, rfl⟩ := h; exact hrow
      refine ⟨⟨fun _ => id, fun _ => id, fun _ h => mem_graphAdd.mpr (.inl h), fun _ => id, fun _ => id, fun _ => id⟩, ?_, fun h _ h1 h2 => absurd (hr _ _ h1) h2⟩
      intro i
      refine { i with feats := ?_, rows := fun e n h => i.rows e n (hr e n h), entities := ?_, nodups := ⟨i.nodups.1, i.nodups.2.1, nodup_graphAdd i.nodups.2.2⟩ }
      · intro k hk
        rcases mem_graphAdd.mp hk with hk | hk
        · exact i.feats k hk
        · exact ⟨g, hgb, by simpa using hi, hk⟩
      · intro e he
        obtain ⟨n, h | h⟩ := i.entities e he
        · exact ⟨n, .inl h⟩
        · exact ⟨n, .inr (mem_graphAdd.mpr (.inl h))⟩
  unfold graphAddGroup
  dsimp only
  generalize (if g.isIdentity then { s with vars := graphAdd s.vars (g.entity, g.name) } else { s with feats := graphAdd s.feats (g.entity, g.name) } : Graph) = s1 at e1 ⊢
  have e2 := ext_group (P := P) (t := t) (s := s1) (e := (.group (shownSource f).name g.entity g.name, g.name)) ⟨f, _, hf, hni, rfl⟩
  have e3 := ext_dotted (P := P) (s := { s1 with groups := s1.groups ++ [(.group (shownSource f).name g.entity g.name, g.name)] })
    (e := (.row g.entity g.name, .group (shownSource f).name g.entity g.name)) ⟨f, hf, hni, .inl ⟨_, _, rfl, rfl, .inr ⟨g, hg, rfl⟩⟩⟩
    (fun _ _ _ h => by cases h; exact List.mem_append_right _ (.head _))
  have e4 := ext_arrow (P := P) (s := { s1 with groups := s1.groups ++ [(.group (shownSource f).name g.entity g.name, g.name)], dotted := s1.dotted ++ [(.row g.entity g.name, .group (shownSource f).name g.entity g.name)] })
    (e := (.group (shownSource f).name g.entity g.name, base)) ⟨f, hf, hni, ho, .inl rfl⟩
  have e := ((e1.trans e2).trans e3).trans e4
  have hlead := Leads.arrow (s := { s1 with groups := s1.groups ++ [(.group (shownSource f).name g.entity g.name, g.name)], dotted := s1.dotted ++ [(.row g.entity g.name, .group (shownSource f).name g.entity g.name)], solid := s1.solid ++ [(.group (shownSource f).name g.entity g.name, base)] })
    (a := .group (shownSource f).name g.entity g.name) (b := base) (List.mem_append_right _ (.head _)) (Leads.mono e.sub hl)
  exact ⟨e, .inr rfl, hlead, .box (List.mem_append_right _ (.head _)) hlead⟩

theorem stageLoop (fit : GraphFit t) {f : Feat} (hf : Upstream t f) (visit : Feat → Graph → Nat × Graph) (base : GNode) (ds : List Feat)
    (hd : ∀ d ∈ ds, CalcFrom f d) (hv : ∀ d ∈ ds, ∀ s, GInv P t s → GExt P t s (visit d s).2 ∧ HasRow (visit d s).2 d.entity d.name)
    (x : Nat × Graph) (hi : GInv P t x.2) (ho : Own f base) (hl : Leads x.2 base (featRow f)) :
    GExt P t x.2 (graphLoop visit base ds x).2 ∧
    ∀ d ∈ ds, HasRow (graphLoop visit base ds x).2 d.entity d.name ∧ Leads (graphLoop visit base ds x).2 (featRow d) (featRow f) := by
  induction ds generalizing x with
  | nil => exact ⟨.refl P t _, by simp⟩
  | cons d ds ih =>
    obtain ⟨e1, r1⟩ := hv d (.head _) x.2 hi
    have e2 := ext_arrow (P := P) (s := (visit d x.2).2) (e := (.row d.entity d.name, base))
      ⟨f, hf, not_identity_of_input fit hf (hd d (.head _)), ho, .inr ⟨d, hd d (.head _), rfl⟩⟩
    have e := e1.trans e2
    obtain ⟨e3, r3⟩ := ih (fun d h => hd d (.tail _ h)) (fun d h => hv d (.tail _ h))
      (max (visit d x.2).1 x.1, { (visit d x.2).2 with solid := (visit d x.2).2.solid ++ [(.row d.entity d.name, base)] })
      (e.inv hi) (Leads.mono e.sub hl)
    unfold graphLoop
    dsimp only
    refine ⟨e.trans e3, ?_⟩
    intro d' hd'
    rcases List.mem_cons.mp hd' with rfl | hd'
    · refine ⟨HasRow.mono (e2.trans e3).sub r1, ?_⟩
      exact .arrow (e3.sub.solid _ (List.mem_append_right _ (.head _))) (Leads.mono (e.trans e3).sub hl)
    · exact r3 d' hd'

end

end FT
