import Verif.Spec.ApproxPlain
import Verif.Lemmas.DfsMatrix
import Verif.Lemmas.CfmApprox
/-! # Plain conditions for computations with `approximate` -/
namespace FT
open Spec

theorem needs_trans {f g d : Feat} (h : Needs f g) (hd : Needs g d) : Needs f d := by
  rcases h with rfl | h
  · exact hd
  · rcases hd with rfl | hd
    · exact .inr h
    · exact .inr (Uses.trans h hd)

theorem needs_unslice {f d b : Feat} (hd : d ∈ f.bases ∨ d ∈ f.wh) (hb : unslice d = some b) : Needs f b := by
  rcases unslice_cases hb with ⟨_, rfl⟩ | ⟨n, _, hh⟩
  · exact .inr (.direct hd (by simp))
  · exact .inr (.deep hd (by simp) (.direct (.inl (List.mem_of_head? hh)) (by simp)))

theorem Spec.EntityOk.shown {env : Env} {e : String} (h : EntityOk env e) (t : Int) (w : Option Window) : EntityOk { env with timeLast := t, window := w } e :=
  ⟨h.there, h.indexKey, h.timeKey, h.keys, h.distinct, h.present, h.notSecondary⟩

theorem Spec.RelOk.shown {env : Env} {r : Relationship} (h : RelOk env r) (t : Int) (w : Option Window) : RelOk { env with timeLast := t, window := w } r :=
  ⟨h.parent.shown t w, h.child.shown t w, h.parentIndex, h.childKey, h.known⟩

theorem wellFormed_shown {env : Env} {f : Feat} (h : WellFormed env f) (t : Int) (w : Option Window) : WellFormed { env with timeLast := t, window := w } f := by
  refine ⟨h.1, h.2.1, h.2.2.1.shown t w, ?_⟩
  have h' := h.2.2.2
  cases hk : f.kind with
  | identity v => rw [hk] at h'; exact h'
  | slice n => rw [hk] at h'; exact h'
  | direct r => rw [hk] at h'; exact ⟨h'.1.shown t w, h'.2⟩
  | agg path p prev b => rw [hk] at h'; exact ⟨fun r hr => (h'.1 r hr).shown t w, h'.2⟩
  | trans p => rw [hk] at h'; exact h'
  | groupby p => rw [hk] at h'; exact h'

theorem Spec.Computable.shown {env : Env} {features : List Feat} {e : String} (C : Computable env features e) (t : Int) {w : Option Window}
    (hw : w.all Window.hasNoObservations = true) : Computable { env with timeLast := t, window := w } features e :=
  ⟨C.entityOk.shown t w, hw, C.target, fun g hg => ⟨wellFormed_shown (C.wellFormed g hg).1 t w, (C.wellFormed g hg).2⟩, C.brought, C.direct,
    ⟨C.apart.identify, C.apart.columns, C.apart.keys, C.apart.paths, C.apart.linkKeys, C.apart.linkFeatures⟩⟩

theorem Spec.Computable.regular {env : Env} {features : List Feat} {e : String} (C : Computable env features e) : Regular env features e :=
  regular_of_apart C.entityOk C.window (fun g hg => (C.wellFormed g hg).1) (fun f hf => (C.target f hf).2) (fun f hf => (C.target f hf).1)
    (fun f hf => (C.wellFormed f hf).2) C.brought C.direct C.apart

/-- What is needed can be computed alone. -/
theorem Spec.Computable.part {env : Env} {features gs : List Feat} {e e' : String} (C : Computable env features e) (hne : gs ≠ [])
    (hgs : ∀ g ∈ gs, NeededBy features g ∧ g.entity = e' ∧ WholeFeature g) : Computable env gs e' := by
  have hn : ∀ {g}, NeededBy gs g → NeededBy features g := by
    rintro g ⟨x, hx, h⟩
    obtain ⟨⟨f, hf, hfx⟩, _⟩ := hgs x hx
    exact ⟨f, hf, needs_trans hfx h⟩
  obtain ⟨g0, hg0⟩ := List.exists_mem_of_ne_nil _ hne
  have hE : EntityOk env e' := by
    have := (C.wellFormed g0 (hgs g0 hg0).1).1.2.2.1
    rwa [(hgs g0 hg0).2.1] at this
  refine ⟨hE, C.window, fun f hf => (hgs f hf).2, fun g hg => C.wellFormed g (hn hg), fun f r hf => C.brought f r (hn hf),
    fun f g r hf hg => C.direct f g r (hn hf) (hn hg), ?_⟩
  have A := C.apart
  exact ⟨fun a b ha hb => A.identify a b (hn ha) (hn hb), fun f g hf hg => A.columns f g (hn hf) (hn hg), fun f hf => A.keys f (hn hf),
    fun f g hf hg => A.paths f g (hn hf) (hn hg), A.linkKeys, fun c n chain hl hlen f hf hw he hm =>
      ⟨(A.linkFeatures c n chain hl hlen f (hn hf) hw he hm).1, fun g hg => (A.linkFeatures c n chain hl hlen f (hn hf) hw he hm).2 g (hn hg)⟩⟩

/-- Why a feature is computed on a full entity. -/
theorem planned_full {targets : List Feat} {hidden : List Edge → List String} {p f full} (h : Planned targets hidden p f full) :
    full = true → ∃ x, NeededBy targets x ∧ x.usesFull = true ∧ Needs x f := by
  induction h with
  | target hf _ => exact fun h => ⟨_, ⟨_, hf, .inl rfl⟩, h, .inl rfl⟩
  | @dep p f full d b hp hd he hn ih =>
    intro h
    rcases Bool.or_eq_true _ _ ▸ h with h | h
    · obtain ⟨x, h1, h2, h3⟩ := ih h
      exact ⟨x, h1, h2, needs_trans h3 (needs_unslice hd he)⟩
    · exact ⟨_, (Planned.dep hp hd he hn).neededBy, h, .inl rfl⟩

section
variable {env : Env} {features : List Feat} {e : String} (C : Computable env features e) (P : CanApproximate env features)

/-- The names looked up at a path. -/
theorem gather_names (C : Computable env features e) (p : List Edge) (n : String) :
    n ∈ hiddenBy (gatherApproximate features) p ↔ ∃ g, Approximated features p g ∧ n = g.uniqueName := by
  have := hidden_gather features C.apart.identify (by
    intro g hg r hk
    obtain ⟨_, _, b, hb, _⟩ := direct_wf (C.wellFormed g hg).1 hk
    rw [hb]; simp) p n
  rw [this]
  constructor
  · rintro ⟨f, hf, hn, g, hc, ha, hg⟩
    exact ⟨g, ⟨f, hf, hn, hc, ha⟩, hg⟩
  · rintro ⟨g, ⟨f, hf, hn, hc, ha⟩, hg⟩
    exact ⟨f, hf, hn, g, hc, ha, hg⟩

theorem gather_agg (C : Computable env features e) {p : List Edge} {d : Feat} (hd : NeededBy features d)
    (h : d.uniqueName ∈ hiddenBy (gatherApproximate features) p) : Approximated features p d := by
  obtain ⟨g, hg, hn⟩ := (gather_names C p _).mp h
  rwa [C.apart.identify d g hd hg.neededBy hn]

theorem chain_forward {f g : Feat} {p : RelPath} (h : DirectChain f p g) : p ≠ [] ∧ ∀ x ∈ p, x.1 = true := by
  induction h with
  | last _ _ _ => simp
  | more _ _ _ ih => simpa using ih.2

theorem chain_single (C : Computable env features e) {f g : Feat} {p : RelPath} (h : DirectChain f p g) : NeededBy features f → SingleOutput g := by
  induction h with
  | last hk hb _ => exact fun hn => C.brought _ _ hn hk _ (by rw [hb]; simp)
  | more hk hb _ ih => exact fun hn => ih (neededBy_dep hn (.inl (by rw [hb]; simp)))

theorem chain_end (C : Computable env features e) {f g : Feat} {p : RelPath} (h : DirectChain f p g) :
    NeededBy features f → g.entity = pathEnd f.entity p := by
  induction h with
  | last hk hb _ =>
    intro hn
    obtain ⟨_, _, b', hb', he⟩ := direct_wf (C.wellFormed _ hn).1 hk
    rw [hb] at hb'; cases hb'
    exact he
  | @more f r b bs p g hk hb hc ih =>
    intro hn
    obtain ⟨_, _, b', hb', he⟩ := direct_wf (C.wellFormed _ hn).1 hk
    rw [hb] at hb'; cases hb'
    rw [ih (neededBy_dep hn (.inl (by rw [hb]; simp))), show (true, r) :: p = [(true, r)] ++ p from rfl,
      pathEnd_append _ _ _ (chain_forward hc).1]
    obtain ⟨⟨d, x⟩, hx⟩ := Option.isSome_iff_exists.mp (List.getLast?_isSome.mpr (chain_forward hc).1)
    unfold pathEnd
    rw [hx]
    cases d <;> rfl

theorem keyOf_meaningAt (C : Computable env features e) (w : World) (G : Given) (hG : G.trie = gatherApproximate features) {f : Feat} {chain : List Relationship}
    (h : KeyOf f chain) : NeededBy features f → ∀ p, meaningAt w G p f = meaning w f := by
  have hid : ∀ {p f}, NeededBy features f → (∀ a b c d, f.kind ≠ .agg a b c d) → f.uniqueName ∉ G.names p := by
    intro p f hf hk hm
    have hm : f.uniqueName ∈ hiddenBy (gatherApproximate features) p := hG ▸ hm
    obtain ⟨_, _, _, _, _, _, _, _, h⟩ := gather_agg C hf hm
    exact hk _ _ _ _ h
  induction h with
  | @column f r hk he =>
    intro hf p
    have hw := (C.wellFormed f hf).1.2.2.2
    simp only [hk] at hw
    rw [meaningAt_computed w G (by rw [hk]; simp) (hid hf (by rw [hk]; simp)), hw.2.2.1, hw.2.2.2.1, meaning_unfold, hw.2.2.1, hw.2.2.2.1]
    rfl
  | @down f b r chain hk hb he hd _ ih =>
    intro hf p
    have hw := (C.wellFormed f hf).1.2.2.2
    simp only [hk] at hw
    have hbn : NeededBy features b := neededBy_dep hf (.inl (by rw [hb]; simp))
    rw [meaningAt_computed w G (by rw [hk]; simp) (hid hf (by rw [hk]; simp)), hb, hw.2.2.1, meaning_unfold, hb, hw.2.2.1]
    simp only [List.map_cons, List.map_nil, ih hbn, meanings]

/-- Plain conditions make a computation with looked-up features regular. -/
theorem regularFor_of_apart (C : Computable env features e) (P : CanApproximate env features) (G : Given) (hG : G.trie = gatherApproximate features) :
    RegularFor env features G e := by
  have hwf : ∀ g, NeededBy features g → WellFormed env g := fun g hg => (C.wellFormed g hg).1
  have hns : ∀ f ∈ features, ∀ n, f.kind ≠ .slice n := fun f hf => (C.target f hf).2
  have hte : ∀ f ∈ features, f.entity = e := fun f hf => (C.target f hf).1
  have hrel : ∀ f, NeededBy features f → ∀ x ∈ f.path, x.2 ∈ env.rels := fun f hf => (C.wellFormed f hf).2
  have A := C.apart
  have hgiven : ∀ {p f}, GivenAt features G.names p f → Approximated features p f := by
    intro p f h
    exact gather_agg C h.neededBy (by have := h.hidden; rwa [show G.names p = hiddenBy (gatherApproximate features) p by rw [← hG]] at this)
  have haent : ∀ {p g}, Approximated features p g → g.entity = pathEnd e p := by
    rintro p g ⟨f, hf, _, hc, _⟩
    rw [chain_end C hc ⟨f, hf, .inl rfl⟩, hte f hf]
  have hfwd : ∀ {p g}, Approximated features p g → p ≠ [] ∧ ∀ x ∈ p, x.1 = true := by
    rintro p g ⟨f, hf, _, hc, _⟩
    exact chain_forward hc
  have hawhole : ∀ {p g}, Approximated features p g → WholeFeature g := by
    rintro p g ⟨f, hf, _, hc, _, _, _, _, hk⟩ n hn
    rw [hk] at hn; cases hn
  have hat : ∀ {p f}, AtNode features G.names p f → NeededBy features f ∧ WholeFeature f ∧ f.entity = pathEnd e p := by
    rintro p f (⟨full, h⟩ | h)
    · exact ⟨h.neededBy, planned_whole hwf hns h, planned_at hwf hns hte h⟩
    · exact ⟨h.neededBy, hawhole (hgiven h), haent (hgiven h)⟩
  have hpath : ∀ {p f}, AtNode features G.names p f → PathOk env e p ∧ ∀ x ∈ p, x.2 ∈ env.rels := by
    rintro p f (⟨full, h⟩ | h)
    · exact ⟨planned_pathOk hwf hns hte h, planned_on_edges hrel h⟩
    · cases h with
      | @dep p f full d b hp hd he _ =>
        refine ⟨PathOk.append (planned_pathOk hwf hns hte hp) ?_, fun x hx => ?_⟩
        · rw [← planned_at hwf hns hte hp]
          exact pathOk_feature (hwf _ hp.neededBy) (planned_whole hwf hns hp)
        · rcases List.mem_append.mp hx with hx | hx
          · exact planned_on_edges hrel hp x hx
          · exact hrel _ hp.neededBy x hx
  have hlink : ∀ {p q f}, AtNode features G.names (p ++ q) f → ∀ l ∈ linksOf env features G p, LinkCol env.rels (pathEnd e p) l.1 l.2.1 := by
    intro p q f h
    have := linksFrom_linkCol (env := env) (plan := planAt (buildTrie features G.trie)) (e := e) p [] []
      ((hpath h).1.of_prefix (List.prefix_append _ _)) (fun x hx => (hpath h).2 x (by simp [hx])) (by simp)
    simpa using this
  refine ⟨hte, hns, C.entityOk, C.window, A.identify, hwf, ?_, ?_, ?_, ?_, ?_, ?_, ?_, ?_, ?_⟩
  · intro p f hp hi
    exact A.keys f (hat hp).1 (hat hp).2.1 fun v hk => by simp [Feat.isIdentity, hk] at hi
  · intro p f g hf hg hne
    exact A.columns f g (hat hf).1 (hat hg).1 (hat hf).2.1 (hat hg).2.1 ((hat hf).2.2.trans (hat hg).2.2.symm) hne
  · intro p q f hf l hl hlen
    exact A.linkKeys _ _ _ (hlink hf l hl) hlen
  · intro p f full hf l hl hlen hm
    have hlc := hlink (q := []) (by simpa using .inl ⟨full, hf⟩) l hl
    obtain ⟨hk, hno⟩ := A.linkFeatures _ _ _ hlc hlen f hf.neededBy (planned_whole hwf hns hf) (planned_at hwf hns hte hf) hm
    obtain ⟨hmean, hlen1, _, _⟩ := keyOf_meaning C.window hwf hk hf.neededBy
    obtain ⟨n, hn⟩ := List.length_eq_one_iff.mp hlen1
    rw [hn] at hm
    simp only [List.mem_singleton] at hm
    refine ⟨by rw [hn, hm], ?_, ?_, fun id => ?_, .inr ?_⟩
    · generalize l.2.1 = c at hk hlen
      cases hk with
      | column r => simp at hlen
      | down r hk => exact ⟨r, hk⟩
    · generalize l.2.1 = c at hk hlen
      cases hk with
      | column r => simp at hlen
      | down r _ _ _ hd => exact hd
    · rw [keyOf_meaningAt C _ G hG hk hf.neededBy]; exact hmean id
    · cases h : (planAt (buildTrie features G.trie) p).need with
      | false => rfl
      | true =>
        obtain ⟨p', g, hg, _⟩ := (plan_spec features G p).2.2.mp h
        obtain ⟨x, hx, hx', _⟩ := planned_full hg rfl
        rw [hno x hx] at hx'
        cases hx'
  · intro p f g full full' hf hg
    exact A.paths f g hf.neededBy hg.neededBy (planned_whole hwf hns hf) (planned_whole hwf hns hg)
      ((planned_at hwf hns hte hf).trans (planned_at hwf hns hte hg).symm)
  · rintro p f g full full' hf hg ⟨r, hkf, hkg⟩ hne
    exact direct_apart hwf C.brought C.direct A.identify hf.neededBy hg.neededBy hkf hkg hne
  · intro p f hp
    have ha := hgiven hp
    refine ⟨(hfwd ha).2, ?_⟩
    cases h : (planAt (buildTrie features G.trie) p).need with
    | false => rfl
    | true =>
      exfalso
      obtain ⟨p', g, hg, hpre, hsuf⟩ := (plan_spec features G p).2.2.mp h
      obtain ⟨x, hx, hx', hxg⟩ := planned_full hg rfl
      obtain ⟨q, rfl⟩ := hpre
      have hq : q <+: g.path := (List.prefix_append_right_inj p').mp hsuf
      by_cases hqne : q = []
      · subst hqne
        simp only [List.append_nil] at ha
        exact P.full _ _ ha x hx hx' g hxg (by rw [haent ha, planned_at hwf hns hte hg])
      · -- the path of `g` starts towards a parent
        obtain ⟨r, hk⟩ : ∃ r, g.kind = .direct r := by
          obtain ⟨x0, q', rfl⟩ := List.exists_cons_of_ne_nil hqne
          have hx0 : x0.1 = true := (hfwd ha).2 x0 (by simp)
          have hmem : x0 ∈ g.path := hq.subset (by simp)
          cases hk : g.kind with
          | identity v => rw [path_identity hk] at hmem; cases hmem
          | trans v => rw [path_trans hk] at hmem; cases hmem
          | groupby v => rw [path_groupby hk] at hmem; cases hmem
          | slice n => exact absurd hk (planned_whole hwf hns hg n)
          | agg path prim prev u =>
            rw [path_agg hk] at hmem
            obtain ⟨r, _, rfl⟩ := List.mem_map.mp hmem
            cases hx0
          | direct r => exact ⟨r, rfl⟩
        obtain ⟨_, _, b, hb, hbe⟩ := direct_wf (hwf g hg.neededBy) hk
        rw [path_direct hk] at hq
        have hq' : q = [(true, r)] := by
          obtain ⟨x0, q', rfl⟩ := List.exists_cons_of_ne_nil hqne
          obtain ⟨s, hs⟩ := hq
          simp only [List.cons_append, List.cons.injEq, List.append_eq_nil_iff] at hs
          rw [hs.1, hs.2.1]
        subst hq'
        refine P.full _ _ ha x hx hx' b (needs_trans hxg (.inr (.direct (.inl (by rw [hb]; simp)) (by simp)))) ?_
        rw [haent ha, pathEnd_append _ _ _ (by simp), hbe]
        rfl
  · intro p f hp
    obtain ⟨_, _, _, _, _, _, _, _, hk⟩ := hgiven hp
    simp [Feat.isIdentity, hk]
  · cases hn : G.names [] with
    | nil => rfl
    | cons n ns =>
      have : n ∈ hiddenBy (gatherApproximate features) [] := by
        rw [← hG]
        show n ∈ G.names []
        rw [hn]; simp
      obtain ⟨g, hg, _⟩ := (gather_names C [] n).mp this
      exact absurd rfl (hfwd hg).1

end

/-- Plain conditions for `approximate`. -/
theorem approxOk_of_apart {env : Env} {features : List Feat} {e : String} (C : Computable env features e) (P : CanApproximate env features)
    (t b : Int) {w : Option Window} (hw : w.all Window.hasNoObservations = true) :
    ApproxOk env features e { env with timeLast := t, window := w } b where
  remaining := regularFor_of_apart (C.shown t hw) ⟨P.full, P.links⟩ _ rfl
  own := by
    intro p gs hne hgs
    refine ((C.part (e' := pathEnd e p) hne fun g hg => ?_).shown b C.window).regular
    have ha := hgs g hg
    refine ⟨ha.neededBy, ?_, fun n hn => ?_⟩
    · obtain ⟨f, hf, _, hc, _⟩ := ha
      rw [chain_end C hc ⟨f, hf, .inl rfl⟩, (C.target f hf).1]
    · obtain ⟨_, _, _, _, _, _, _, _, hk⟩ := ha
      rw [hk] at hn; cases hn
  single := fun p g ⟨f, hf, _, hc, _⟩ => chain_single C hc ⟨f, hf, .inl rfl⟩
  links := P.links

end FT
