import Verif.Lemmas.NodePath
import Verif.Lemmas.Gather
/-! # The rows of a node -/
namespace FT
open Spec

/-- The plan. -/
abbrev rootTrie (targets : List Feat) (G : Given) : FTrie := buildTrie targets G.trie
/-- The value of the plan at a path. -/
abbrev valAt (targets : List Feat) (G : Given) (p : List Edge) : NodeVal := planAt (rootTrie targets G) p
abbrev byNameOf (targets : List Feat) : String → Option Feat := lookupFeature (featuresByName targets)

theorem setAdd_nodup {s : List String} (h : s.Nodup) (n : String) : (setAdd s n).Nodup := by
  unfold setAdd
  split
  · exact h
  · rename_i hn
    simp only [List.contains_eq_mem, decide_eq_true_eq] at hn
    rw [List.nodup_append]
    refine ⟨h, by simp, ?_⟩
    intro a ha b hb hab
    simp at hb; subst hb; subst hab; exact hn ha

theorem plan_nodup (targets : List Feat) (G : Given) (p : List Edge) : (valAt targets G p).full.Nodup ∧ (valAt targets G p).notFull.Nodup := by
  have key : ∀ (xs : List Visit) (v : NodeVal), v.full.Nodup ∧ v.notFull.Nodup → (eff p xs v).full.Nodup ∧ (eff p xs v).notFull.Nodup := by
    intro xs
    induction xs with
    | nil => intro v h; exact h
    | cons x xs ih =>
      intro v h
      simp only [eff, List.foldl_cons]
      apply ih
      have hvis : (v.visit x.2.2 x.2.1.uniqueName).full.Nodup ∧ (v.visit x.2.2 x.2.1.uniqueName).notFull.Nodup := by
        unfold NodeVal.visit
        split
        · exact ⟨setAdd_nodup h.1 _, List.filter_sublist.nodup h.2⟩
        · split
          · exact h
          · exact ⟨h.1, setAdd_nodup h.2 _⟩
      unfold effOne
      by_cases h1 : p = x.1
      · simp only [h1, if_true]
        split
        · exact hvis
        · exact hvis
      · simp only [h1, if_false]
        split
        · exact h
        · exact h
  have := valueAt_buildTrie targets G.trie p
  have hv : valAt targets G p = eff p (targets.flatMap fun f => visits false false f G.trie) NodeVal.empty := this
  rw [hv]
  exact key _ _ ⟨by simp [NodeVal.empty], by simp [NodeVal.empty]⟩

/-- The plan at a node, in terms of planned features. -/
theorem plan_spec (targets : List Feat) (G : Given) (p : List Edge) :
    (∀ n, n ∈ (valAt targets G p).full ↔ ∃ g, Planned targets G.names p g true ∧ n = g.uniqueName) ∧
    (∀ n, n ∈ (valAt targets G p).notFull ↔ (∃ g full, Planned targets G.names p g full ∧ n = g.uniqueName) ∧ n ∉ (valAt targets G p).full) ∧
    ((valAt targets G p).need = true ↔ ∃ p' g, Planned targets G.names p' g true ∧ p' <+: p ∧ p <+: p' ++ g.path) := by
  exact buildTrie_spec targets G.trie p

theorem findFeats_ok {targets : List Feat} (hinj : NamesIdentify targets) : ∀ (names : List String),
    (∀ n ∈ names, ∃ g, NeededBy targets g ∧ n = g.uniqueName) →
    ∃ fs, findFeats (byNameOf targets) names = .ok fs ∧ fs.map Feat.uniqueName = names ∧
      ∀ f, NeededBy targets f → (f ∈ fs ↔ f.uniqueName ∈ names)
  | [], _ => ⟨[], rfl, rfl, by simp⟩
  | n :: names, h => by
    obtain ⟨fs, h1, h2, h3⟩ := findFeats_ok hinj names fun m hm => h m (by simp [hm])
    obtain ⟨g, hg, rfl⟩ := h n (by simp)
    refine ⟨g :: fs, ?_, by simp [h2], ?_⟩
    · simp only [findFeats, h1]
      rw [show byNameOf targets g.uniqueName = some g from lookupFeature_needed targets hinj g hg]
    · intro f hf
      simp only [List.mem_cons, h3 f hf]
      constructor
      · rintro (rfl | h)
        · exact .inl rfl
        · exact .inr h
      · rintro (h | h)
        · exact .inl (hinj f g hf hg h)
        · exact .inr h

theorem findFeats_needed {targets : List Feat} (hinj : NamesIdentify targets) (names : List String) (fs : List Feat)
    (hn : ∀ n ∈ names, ∃ g, NeededBy targets g ∧ n = g.uniqueName) (h : findFeats (byNameOf targets) names = .ok fs) :
    ∀ f ∈ fs, NeededBy targets f := by
  induction names generalizing fs with
  | nil => cases h; simp
  | cons n names ih =>
    obtain ⟨g, hg, rfl⟩ := hn n (by simp)
    obtain ⟨fs', h1, _⟩ := findFeats_ok hinj names fun m hm => hn m (by simp [hm])
    simp only [findFeats, h1] at h
    rw [show byNameOf targets g.uniqueName = some g from lookupFeature_needed targets hinj g hg] at h
    cases h
    intro f hf
    rcases List.mem_cons.mp hf with rfl | hf
    · exact hg
    · exact ih fs' (fun m hm => hn m (by simp [hm])) h1 f hf

section
variable {env : Env} {targets : List Feat} {G : Given} {e0 : String} (R : RegularFor env targets G e0)
include R

/-- The features in the full-entity set of a node. -/
theorem full_feats (p : List Edge) : ∃ fs, findFeats (byNameOf targets) (valAt targets G p).full = .ok fs ∧ fs.Nodup ∧
    ∀ f, f ∈ fs ↔ Planned targets G.names p f true := by
  have hs := plan_spec targets G p
  have hn : ∀ n ∈ (valAt targets G p).full, ∃ g, NeededBy targets g ∧ n = g.uniqueName := by
    intro n hn
    obtain ⟨g, hg, e⟩ := (hs.1 n).mp hn
    exact ⟨g, hg.neededBy, e⟩
  obtain ⟨fs, h1, h2, h3⟩ := findFeats_ok R.names _ hn
  refine ⟨fs, h1, ?_, ?_⟩
  · have := (plan_nodup targets G p).1
    rw [← h2] at this
    exact List.Pairwise.of_map _ (fun a b hab he => hab (congrArg _ he)) this
  · intro f
    constructor
    · intro hf
      have hnb := findFeats_needed R.names _ fs hn h1 f hf
      obtain ⟨g, hg, e⟩ := (hs.1 _).mp ((h3 f hnb).mp hf)
      rw [R.names f g hnb hg.neededBy e]; exact hg
    · intro hf
      exact (h3 f hf.neededBy).mpr ((hs.1 _).mpr ⟨f, hf, rfl⟩)

/-- The other features of a node. -/
theorem notFull_feats (p : List Edge) : ∃ fs, findFeats (byNameOf targets) (valAt targets G p).notFull = .ok fs ∧ fs.Nodup ∧
    ∀ f, f ∈ fs ↔ (∃ full, Planned targets G.names p f full) ∧ ¬ Planned targets G.names p f true := by
  have hs := plan_spec targets G p
  have hn : ∀ n ∈ (valAt targets G p).notFull, ∃ g, NeededBy targets g ∧ n = g.uniqueName := by
    intro n hn
    obtain ⟨⟨g, full, hg, e⟩, _⟩ := (hs.2.1 n).mp hn
    exact ⟨g, hg.neededBy, e⟩
  obtain ⟨fs, h1, h2, h3⟩ := findFeats_ok R.names _ hn
  refine ⟨fs, h1, ?_, ?_⟩
  · have := (plan_nodup targets G p).2
    rw [← h2] at this
    exact List.Pairwise.of_map _ (fun a b hab he => hab (congrArg _ he)) this
  · intro f
    constructor
    · intro hf
      have hnb := findFeats_needed R.names _ fs hn h1 f hf
      obtain ⟨⟨g, full, hg, e⟩, hnf⟩ := (hs.2.1 _).mp ((h3 f hnb).mp hf)
      have := R.names f g hnb hg.neededBy e
      subst this
      exact ⟨⟨full, hg⟩, fun h => hnf ((hs.1 _).mpr ⟨f, h, rfl⟩)⟩
    · rintro ⟨⟨full, hf⟩, hnf⟩
      refine (h3 f hf.neededBy).mpr ((hs.2.1 _).mpr ⟨⟨f, full, hf, rfl⟩, ?_⟩)
      intro h
      obtain ⟨g, hg, e⟩ := (hs.1 _).mp h
      rw [← R.names f g hf.neededBy hg.neededBy e] at hg
      exact hnf hg

/-- All features of a node. -/
theorem all_feats (p : List Edge) : ∃ fs, findFeats (byNameOf targets) ((valAt targets G p).full ++ (valAt targets G p).notFull) = .ok fs ∧
    ∀ f, f ∈ fs ↔ ∃ full, Planned targets G.names p f full := by
  have hs := plan_spec targets G p
  have hiff : ∀ n, n ∈ (valAt targets G p).full ++ (valAt targets G p).notFull ↔ ∃ g full, Planned targets G.names p g full ∧ n = g.uniqueName := by
    intro n
    rw [List.mem_append]
    constructor
    · rintro (h | h)
      · obtain ⟨g, hg, e⟩ := (hs.1 n).mp h; exact ⟨g, true, hg, e⟩
      · exact ((hs.2.1 n).mp h).1
    · intro h
      by_cases hf : n ∈ (valAt targets G p).full
      · exact .inl hf
      · exact .inr ((hs.2.1 n).mpr ⟨h, hf⟩)
  have hn : ∀ n ∈ (valAt targets G p).full ++ (valAt targets G p).notFull, ∃ g, NeededBy targets g ∧ n = g.uniqueName := by
    intro n hn
    obtain ⟨g, full, hg, e⟩ := (hiff n).mp hn
    exact ⟨g, hg.neededBy, e⟩
  obtain ⟨fs, h1, h2, h3⟩ := findFeats_ok R.names _ hn
  refine ⟨fs, h1, ?_⟩
  intro f
  constructor
  · intro hf
    have hnb := findFeats_needed R.names _ fs hn h1 f hf
    obtain ⟨g, full, hg, e⟩ := (hiff _).mp ((h3 f hnb).mp hf)
    rw [R.names f g hnb hg.neededBy e]
    exact ⟨full, hg⟩
  · rintro ⟨full, hf⟩
    exact (h3 f hf.neededBy).mpr ((hiff _).mpr ⟨f, full, hf, rfl⟩)
end

/-- What a node is given. -/
structure NodeIn (env : Env) (targets : List Feat) (G : Given) (e0 : String) (ids : List Val) (p : List Edge) (fv : String) (fvals : List Val)
    (pd : Option ParentData) : Prop where
  node : hasNode p (rootTrie targets G)
  key : fv ∈ env.keyCols (pathEnd e0 p)
  reach : (∀ x ∈ p, x.1 = true) → fv = indexOf env (pathEnd e0 p) ∧ ∀ x ∈ fvals, ReachedUp (worldOf env) ids p x
  links : match pd with
    | none => linksOf env targets G p = []
    | some pd => ∃ p', p = p' ++ [(false, pd.rel)] ∧ pd.anc = (linksOf env targets G p').map Prod.fst ∧ fv = pd.rel.childV ∧
        (∀ x ∈ fvals, x ≠ .null) ∧
        ∃ Bp Ip, FrameOk (worldOf env) (meaningAt (worldOf env) G p') (indexOf env pd.rel.parentE) pd.rel.parentE Bp (linksOf env targets G p')
            (fun l id => l.2.2 = true ∨ id ∈ fvals) (fun _ => False) Ip pd.df ∧ indexOf env pd.rel.parentE ∈ Bp ∧
          Ip.Sublist ((worldOf env).ids pd.rel.parentE) ∧
          ((valAt targets G p').need = true → Ip = (worldOf env).ids pd.rel.parentE) ∧ ∀ x ∈ fvals, x ∈ Ip

/-- The columns a node reads from its entity. -/
structure BaseCols (env : Env) (targets : List Feat) (G : Given) (e0 : String) (p : List Edge) (B : List String) : Prop where
  key : ∀ c ∈ env.keyCols (pathEnd e0 p), c ∈ B
  vars : ∀ f full, Planned targets G.names p f full → ∀ v, f.kind = .identity v → v ∈ B
  only : ∀ c ∈ B, c ∈ env.keyCols (pathEnd e0 p) ∨ ∃ g full, Planned targets G.names p g full ∧ g.isIdentity = true ∧ g.names = [c]

/-- The rows a node is asked for: `I` contains everything whose `fv` is among `fvals`. -/
def Asked (env : Env) (e fv : String) (fvals : List Val) (I : List Val) : Prop :=
  I.Sublist ((worldOf env).ids e) ∧
  (∀ x ∈ (worldOf env).ids e, (worldOf env).cell e x fv ∈ fvals → (worldOf env).cell e x fv ≠ .null → x ∈ I) ∧
  ∀ x ∈ I, (worldOf env).cell e x fv ∈ fvals ∨ (worldOf env).cell e x fv = .null

theorem zip_map_mem {α β γ : Type} (l : List α) (f : α → β) (g : α → γ) (b : β) (c : γ) :
    (b, c) ∈ (l.map f).zip (l.map g) ↔ ∃ a ∈ l, f a = b ∧ g a = c := by
  rw [List.zip_map']
  simp only [List.mem_map, Prod.mk.injEq]

/-- `prepNode` once the query has been answered. -/
theorem prepNode_eq {env : Env} {byName e v fv fvals ent fs df} (hent : env.ent e = some ent)
    (hfs : findFeats byName (v.full ++ v.notFull) = .ok fs)
    (hq : queryByValues ent (if v.need then none else some fvals) (if v.need then none else some fv)
        (some (necessaryColumns env e fs)) (some env.timeLast) env.window env.includeCutoff = .ok df) :
    prepNode env byName e v fv fvals none = .ok (df, []) ∧
    (∀ pd, pd.anc.isEmpty = true → prepNode env byName e v fv fvals (some pd) = .ok (df, [pd.rel.childV])) ∧
    ∀ pd df' new, ¬ pd.anc.isEmpty = true → addAncestors env pd df = .ok (df', new) →
      prepNode env byName e v fv fvals (some pd) = .ok (df', new ++ [pd.rel.childV]) := by
  refine ⟨?_, ?_, ?_⟩
  · simp only [prepNode, Env.getEnt, hent, hfs, hq]
  · intro pd h
    simp only [prepNode, Env.getEnt, hent, hfs, hq, h, if_true]
  · intro pd df' new h ha
    simp only [prepNode, Env.getEnt, hent, hfs, hq, h, ha, if_false]
    rfl

section
variable {env : Env} {targets : List Feat} {G : Given} {e0 : String} (R : RegularFor env targets G e0)
include R

/-- The rows and link columns of a node. -/
theorem prepNode_ok {p : List Edge} {fv : String} {fvals : List Val} {pd : Option ParentData} {ids : List Val}
    (h : NodeIn env targets G e0 ids p fv fvals pd) :
    ∃ df B I I', prepNode env (byNameOf targets) (pathEnd e0 p) (valAt targets G p) fv fvals pd =
        .ok (df, (linksOf env targets G p).map Prod.fst) ∧
      BaseCols env targets G e0 p B ∧ I.Sublist ((worldOf env).ids (pathEnd e0 p)) ∧
      ((valAt targets G p).need = true → I = (worldOf env).ids (pathEnd e0 p) ∧
        I' = I.filter fun x => fvals.contains ((worldOf env).cell (pathEnd e0 p) x fv)) ∧
      ((valAt targets G p).need = false → I' = I) ∧
      Asked env (pathEnd e0 p) fv fvals I' ∧
      FrameOk (worldOf env) (meaningAt (worldOf env) G p) (indexOf env (pathEnd e0 p)) (pathEnd e0 p) B (linksOf env targets G p)
        (fun l id => l.2.2 = true ∨ id ∈ I') (fun _ => False) I df := by
  have hE := node_entity R h.node
  obtain ⟨ent, hent, hidx⟩ := hE.get
  obtain ⟨fs, hfs, hmem⟩ := all_feats R p
  -- the columns
  have hB : BaseCols env targets G e0 p (necessaryColumns env (pathEnd e0 p) fs) := by
    refine ⟨?_, ?_, ?_⟩
    · intro c hc; simp only [necessaryColumns, mem_dedup, List.mem_append]; exact .inl hc
    · intro f full hp v hv
      simp only [necessaryColumns, mem_dedup, List.mem_append, List.mem_filterMap]
      exact .inr ⟨f, (hmem f).mpr ⟨full, hp⟩, by simp [identityVar?, hv]⟩
    · intro c hc
      simp only [necessaryColumns, mem_dedup, List.mem_append, List.mem_filterMap] at hc
      rcases hc with hc | ⟨f, hf, hv⟩
      · exact .inl hc
      · right
        obtain ⟨full, hp⟩ := (hmem f).mp hf
        cases hk : f.kind with
        | identity v =>
          simp [identityVar?, hk] at hv; subst hv
          have hw := (R.wf f hp.neededBy).2.2.2
          simp only [hk] at hw
          have hs : f.names = [f.name] := hw.2.1
          exact ⟨f, full, hp, by simp [Feat.isIdentity, hk], by rw [hs, hw.1]⟩
        | _ => simp [identityVar?, hk] at hv
  have hcols : ∀ c ∈ necessaryColumns env (pathEnd e0 p) fs, c ∈ ent.df.cols := by
    intro c hc
    simp only [necessaryColumns, mem_dedup, List.mem_append, List.mem_filterMap] at hc
    rcases hc with hc | ⟨f, hf, hv⟩
    · exact hE.keys ent hent c hc
    · obtain ⟨full, hp⟩ := (hmem f).mp hf
      cases hk : f.kind with
      | identity v =>
        simp [identityVar?, hk] at hv; subst hv
        have hw := (R.wf f hp.neededBy).2.2.2
        simp only [hk] at hw
        exact hw.2.2.2.2 ent (by rw [planned_entity R hp]; exact hent)
      | _ => simp [identityVar?, hk] at hv
  obtain ⟨rows, hq, hsub, hfull, hpart⟩ := query_node (e := pathEnd e0 p) R.window (valAt targets G p).need fvals fv
    (necessaryColumns env (pathEnd e0 p) fs) ent hent (hE.keys ent hent fv h.key) hcols
  let I := rows.map fun r => r (indexOf env (pathEnd e0 p))
  let I' := if (valAt targets G p).need then I.filter fun x => fvals.contains ((worldOf env).cell (pathEnd e0 p) x fv) else I
  have hcell : ∀ r ∈ rows, ∀ c, (worldOf env).cell (pathEnd e0 p) (r (indexOf env (pathEnd e0 p))) c = r c :=
    fun r hr c => cell_row hE R.window (hsub.subset hr) c
  have hIsub : I.Sublist ((worldOf env).ids (pathEnd e0 p)) := hsub.map _
  have hIfull : (valAt targets G p).need = true → I = (worldOf env).ids (pathEnd e0 p) := by
    intro hn; simp only [I, hfull hn]; rfl
  have hAsked : Asked env (pathEnd e0 p) fv fvals I' := by
    cases hneed : (valAt targets G p).need with
    | true =>
      have hI' : I' = I.filter fun x => fvals.contains ((worldOf env).cell (pathEnd e0 p) x fv) := by simp [I', hneed]
      refine ⟨by rw [hI']; exact List.filter_sublist.trans hIsub, ?_, ?_⟩
      · intro x hx hc _
        rw [hI', List.mem_filter]
        exact ⟨by rw [hIfull hneed]; exact hx, by simpa using hc⟩
      · intro x hx
        rw [hI', List.mem_filter] at hx
        exact .inl (by simpa using hx.2)
    | false =>
      have hI' : I' = I := by simp [I', hneed]
      obtain ⟨h1, h2⟩ := hpart hneed
      refine ⟨by rw [hI']; exact hIsub, ?_, ?_⟩
      · intro x hx hc hnn
        obtain ⟨r, hr, rfl⟩ := List.mem_map.mp hx
        rw [cell_row hE R.window hr] at hc hnn
        rw [hI']
        exact List.mem_map.mpr ⟨r, h1 r hr hc hnn, rfl⟩
      · intro x hx
        rw [hI'] at hx
        obtain ⟨r, hr, rfl⟩ := List.mem_map.mp hx
        rw [hcell r hr]
        exact h2 r hr
  obtain ⟨hp1, hp2, hp3⟩ := prepNode_eq hent hfs hq
  -- the frame without links
  have hbase : FrameOk (worldOf env) (meaningAt (worldOf env) G p) (indexOf env (pathEnd e0 p)) (pathEnd e0 p) (necessaryColumns env (pathEnd e0 p) fs) []
      (fun l id => l.2.2 = true ∨ id ∈ I') (fun _ => False) I ⟨necessaryColumns env (pathEnd e0 p) fs, rows⟩ := by
    refine ⟨rfl, fun c hc => ⟨hc, fun r hr => (hcell r hr c).symm⟩, by simp, fun f hf => hf.elim, fun c hc => .inl hc⟩
  cases pd with
  | none =>
    have hl : linksOf env targets G p = [] := h.links
    refine ⟨_, _, I, I', by rw [hl]; exact hp1, hB, hIsub, fun hn => ⟨hIfull hn, by simp [I', hn]⟩, fun hn => by simp [I', hn], hAsked, ?_⟩
    rw [hl]; exact hbase
  | some pd =>
    obtain ⟨p', rfl, hanc, hfv, hnn, Bp, Ip, hP, hPi, hPs, hPn, hPv⟩ := h.links
    have hr := node_path R h.node p' false pd.rel [] (by simp)
    simp only [Bool.false_eq_true, if_false] at hr
    have hend : pathEnd e0 (p' ++ [(false, pd.rel)]) = pd.rel.childE := by rw [pathEnd_append _ _ _ (by simp)]; rfl
    have hpn := hr.1.known
    obtain ⟨pn, hpn⟩ := Option.isSome_iff_exists.mp hpn
    have hlinks := linksAt_snoc env targets G p' (false, pd.rel)
    simp only [linkStep, hpn, Option.getD_some] at hlinks
    have hck : pd.rel.childV ∈ necessaryColumns env (pathEnd e0 (p' ++ [(false, pd.rel)])) fs :=
      hB.key _ (by rw [hend]; exact hr.1.childKey)
    have hup1 : ∀ r ∈ rows, r pd.rel.childV = (worldOf env).up [pd.rel] (r (indexOf env (pathEnd e0 (p' ++ [(false, pd.rel)])))) := by
      intro r hr'
      rw [World.up, World.up]
      have := hcell r hr' pd.rel.childV
      rw [← this]
      simp only [hend]
    by_cases hane : pd.anc.isEmpty = true
    · have hl0 : linksOf env targets G p' = [] := by
        rw [hanc] at hane
        simpa using hane
      rw [hl0] at hlinks
      simp only [List.map_nil, List.nil_append] at hlinks
      refine ⟨_, _, I, I', by rw [hlinks]; exact hp2 pd hane, hB, hIsub,
        fun hn => ⟨hIfull hn, by simp [I', hn]⟩, fun hn => by simp [I', hn], hAsked, ?_⟩
      rw [hlinks]
      refine ⟨rfl, hbase.base, ?_, fun f hf => hf.elim, fun c hc => .inl hc⟩
      intro l hl
      simp only [List.mem_cons, List.not_mem_nil, or_false] at hl
      subst hl
      exact ⟨hck, fun r hr' _ => hup1 r hr'⟩
    · -- the links of the parent are carried over
      let pre : String → String := fun v => pn ++ "." ++ v
      let L' := linksOf env targets G p'
      let need := (planAt (buildTrie targets G.trie) p').need
      let lift : Link → Link := fun l => (pre l.1, pd.rel :: l.2.1, l.2.2 && need)
      have hlinks' : linksOf env targets G (p' ++ [(false, pd.rel)]) = L'.map lift ++ [(pd.rel.childV, [pd.rel], true)] := hlinks
      have hnewnames : pd.anc.map pre = (L'.map lift).map Prod.fst := by
        rw [hanc, List.map_map, List.map_map]; rfl
      have hnd := link_nodup R (p' ++ [(false, pd.rel)]).length _ rfl h.node
      rw [hlinks', List.map_append, List.nodup_append] at hnd
      obtain ⟨q, f, hpl⟩ := node_planned R h.node (by simp)
      have hkey := R.linkNotKey (p' ++ [(false, pd.rel)]) q f hpl
      have hchain := link_chain (targets := targets) (G := G) p'.length p' rfl ((node_path R h.node).of_prefix (List.prefix_append _ _))
      have hlong : ∀ l ∈ L', 1 < (lift l).2.1.length := by
        intro l hl
        obtain ⟨⟨r', rs', h1, _⟩, _⟩ := hchain l hl
        simp only [lift, h1, List.length_cons]; omega
      have hin : ∀ l ∈ L', lift l ∈ linksOf env targets G (p' ++ [(false, pd.rel)]) := by
        intro l hl; rw [hlinks']; exact List.mem_append.mpr (.inl (List.mem_map.mpr ⟨l, hl, rfl⟩))
      have hnotB : ∀ l ∈ L', pre l.1 ∉ necessaryColumns env (pathEnd e0 (p' ++ [(false, pd.rel)])) fs := by
        intro l hl hc
        rcases hB.only _ hc with hk | ⟨g, gf, hg, hgi, hgn⟩
        · exact hkey (lift l) (hin l hl) (hlong l hl) hk
        · obtain ⟨_, ⟨r', hd⟩, _⟩ := R.linkClash _ g gf hg (lift l) (hin l hl) (hlong l hl) (by rw [hgn]; simp [lift])
          simp [Feat.isIdentity, hd] at hgi
      have hadd : addAncestors env pd ⟨necessaryColumns env (pathEnd e0 (p' ++ [(false, pd.rel)])) fs, rows⟩ =
          .ok (⟨addCols (necessaryColumns env (pathEnd e0 (p' ++ [(false, pd.rel)])) fs) (pd.anc.map pre),
            rows.map fun r => r.put (ancestorCells pd.rel pd.anc (pd.anc.map pre) pd.df r)⟩, pd.anc.map pre) := by
        have h1 : hasCols pd.df (pd.rel.parentV :: pd.anc) = true := by
          rw [hasCols_iff]
          intro c hc
          rcases List.mem_cons.mp hc with rfl | hc
          · rw [hr.1.parentIndex]; exact (hP.base _ hPi).1
          · rw [hanc] at hc
            obtain ⟨l, hl, rfl⟩ := List.mem_map.mp hc
            exact (hP.link l hl).1
        have h2 : ((pd.anc.map pre).any fun n => (necessaryColumns env (pathEnd e0 (p' ++ [(false, pd.rel)])) fs).contains n) = false := by
          rw [List.any_eq_false]
          intro n hn
          rw [hnewnames, List.map_map] at hn
          obtain ⟨l, hl, rfl⟩ := List.mem_map.mp hn
          simpa using hnotB l hl
        simp only [addAncestors, hpn]
        rw [h1]
        simp only [Bool.true_and, List.contains_iff_mem, hck, if_true]
        rw [show (pd.anc.map fun v => pn ++ "." ++ v) = pd.anc.map pre from rfl, h2]
        rfl
      have hpr := hp3 pd _ _ hane hadd
      refine ⟨_, _, I, I', hpr.trans (by rw [hlinks', List.map_append, ← hnewnames]; rfl), hB, hIsub,
        fun hn => ⟨hIfull hn, by simp [I', hn]⟩, fun hn => by simp [I', hn], hAsked, ?_⟩
      -- the cells
      have hput : ∀ r : Row, ∀ c ∈ necessaryColumns env (pathEnd e0 (p' ++ [(false, pd.rel)])) fs,
          r.put (ancestorCells pd.rel pd.anc (pd.anc.map pre) pd.df r) c = r c := by
        intro r c hc
        apply put_absent
        intro v hv
        have hcn : c ∈ pd.anc.map pre := by
          unfold ancestorCells at hv
          split at hv
          · exact (List.of_mem_zip hv).1
          · exact (List.of_mem_zip hv).1
        rw [hnewnames, List.map_map] at hcn
        obtain ⟨l, hl, rfl⟩ := List.mem_map.mp hcn
        exact hnotB l hl hc
      have hidxB : indexOf env (pathEnd e0 (p' ++ [(false, pd.rel)])) ∈ necessaryColumns env (pathEnd e0 (p' ++ [(false, pd.rel)])) fs :=
        hB.key _ hE.indexKey
      have hbp : ∀ l ∈ L', ∀ l2 ∈ L', pre l.1 = pre l2.1 → l.1 = l2.1 := by
        intro l _ l2 _ heq
        have := congrArg String.toList heq
        simp only [pre, String.toList_append] at this
        exact String.toList_inj.mp (List.append_cancel_left this)
      have hPnodup : ((worldOf env).ids pd.rel.parentE).Nodup ∧ Val.null ∉ (worldOf env).ids pd.rel.parentE :=
        visible_ids hr.1.parent R.window
      refine ⟨?_, ?_, ?_, fun f hf => hf.elim, ?_⟩
      · simp only [List.map_map, I]
        exact List.map_congr_left fun r _ => hput r _ hidxB
      · intro c hc
        refine ⟨(mem_addCols _ _ _).mpr (.inl hc), ?_⟩
        intro r' hr'
        obtain ⟨r, hr0, rfl⟩ := List.mem_map.mp hr'
        rw [hput r c hc, hput r _ hidxB]
        exact (hcell r hr0 c).symm
      · intro l hl
        rw [hlinks'] at hl
        rcases List.mem_append.mp hl with hl | hl
        · obtain ⟨l0, hl0, rfl⟩ := List.mem_map.mp hl
          refine ⟨(mem_addCols _ _ _).mpr (.inr (by
            rw [hnewnames]; exact List.mem_map.mpr ⟨_, hl, rfl⟩)), ?_⟩
          intro r' hr' hok
          obtain ⟨r, hr0, rfl⟩ := List.mem_map.mp hr'
          rw [hput r _ hidxB] at hok ⊢
          obtain ⟨⟨rc, rcs, hch, hce⟩, hchok, _⟩ := hchain l0 hl0
          have hcid : (worldOf env).up (lift l0).2.1 (r (indexOf env (pathEnd e0 (p' ++ [(false, pd.rel)])))) =
              (worldOf env).up l0.2.1 (r pd.rel.childV) := by
            simp only [lift, World.up]
            rw [← hcell r hr0 pd.rel.childV]
            simp only [hend]
          rw [hcid]
          -- the merged cell
          cases hfind : pd.df.rows.find? fun x => decide (x pd.rel.parentV = r pd.rel.childV) with
          | some pr =>
            have hprm := List.mem_of_find?_eq_some hfind
            have hpe : pr pd.rel.parentV = r pd.rel.childV := by simpa using List.find?_some hfind
            have hcells : ancestorCells pd.rel pd.anc (pd.anc.map pre) pd.df r = (pd.anc.map pre).zip (pd.anc.map fun a => pr a) := by
              simp only [ancestorCells, hfind]
            rw [hcells]
            have hval : r.put ((pd.anc.map pre).zip (pd.anc.map fun a => pr a)) (lift l0).1 = pr l0.1 := by
              apply put_mem
              · rw [zip_map_mem]
                exact ⟨l0.1, by rw [hanc]; exact List.mem_map.mpr ⟨l0, hl0, rfl⟩, rfl, rfl⟩
              · intro v' hv'
                rw [zip_map_mem] at hv'
                obtain ⟨a, ha, h1, h2⟩ := hv'
                rw [hanc] at ha
                obtain ⟨l2, hl2, rfl⟩ := List.mem_map.mp ha
                rw [← h2, hbp l2 hl2 l0 hl0 h1]
            rw [hval]
            rw [hr.1.parentIndex] at hpe
            rw [← hpe]
            apply (hP.link l0 hl0).2 pr hprm
            rcases hok with hok | hok
            · left
              simp only [lift, Bool.and_eq_true] at hok
              exact hok.1
            · right
              rw [hpe]
              rcases hAsked.2.2 _ hok with h1 | h1
              · rw [hcell r hr0] at h1; rw [hfv] at h1; exact h1
              · exfalso
                rw [hcell r hr0, hfv, ← hpe] at h1
                apply hPnodup.2
                rw [← h1]
                apply hPs.subset
                rw [← hP.ids]
                exact List.mem_map.mpr ⟨pr, hprm, rfl⟩
          | none =>
            have hcells : ancestorCells pd.rel pd.anc (pd.anc.map pre) pd.df r = (pd.anc.map pre).zip (pd.anc.map fun _ => Val.null) := by
              simp only [ancestorCells, hfind]
            rw [hcells]
            have hval : r.put ((pd.anc.map pre).zip (pd.anc.map fun _ => Val.null)) (lift l0).1 = .null := by
              apply put_mem
              · rw [zip_map_mem]
                exact ⟨l0.1, by rw [hanc]; exact List.mem_map.mpr ⟨l0, hl0, rfl⟩, rfl, rfl⟩
              · intro v' hv'
                rw [zip_map_mem] at hv'
                obtain ⟨a, ha, h1, h2⟩ := hv'
                exact h2.symm
            rw [hval]
            have hnone : r pd.rel.childV ∉ Ip := by
              intro hc
              rw [← hP.ids] at hc
              obtain ⟨pr, hprm, hpe⟩ := List.mem_map.mp hc
              rw [List.find?_eq_none] at hfind
              have := hfind pr hprm
              rw [hr.1.parentIndex] at this
              simp [hpe] at this
            have habs : r pd.rel.childV ∉ (worldOf env).ids pd.rel.parentE := by
              rcases hok with hok | hok
              · simp only [lift, Bool.and_eq_true] at hok
                rw [← hPn hok.2]; exact hnone
              · rcases hAsked.2.2 _ hok with h1 | h1
                · rw [hcell r hr0, hfv] at h1
                  exact absurd (hPv _ h1) hnone
                · rw [hcell r hr0, hfv] at h1
                  rw [h1]; exact hPnodup.2
            have : (worldOf env).up l0.2.1 (r pd.rel.childV) = .null := by
              rw [hch]
              refine up_absent R.window rc rcs (fun r' hr' => hchok r' (by rw [hch]; simp [hr'])) _ ?_
              rw [hce, ← hr.2]; exact habs
            rw [this]
        · simp only [List.mem_cons, List.not_mem_nil, or_false] at hl
          subst hl
          refine ⟨(mem_addCols _ _ _).mpr (.inl hck), ?_⟩
          intro r' hr' _
          obtain ⟨r, hr0, rfl⟩ := List.mem_map.mp hr'
          rw [hput r _ hidxB]
          rw [show ((pd.rel.childV, [pd.rel], true) : Link).1 = pd.rel.childV from rfl, hput r _ hck]
          exact hup1 r hr0
      · intro c hc
        rcases (mem_addCols _ _ _).mp hc with hc | hc
        · exact .inl hc
        · right; left
          rw [hnewnames] at hc
          obtain ⟨l, hl, rfl⟩ := List.mem_map.mp hc
          exact ⟨l, by rw [hlinks']; exact List.mem_append.mpr (.inl hl), rfl⟩
end

end FT
