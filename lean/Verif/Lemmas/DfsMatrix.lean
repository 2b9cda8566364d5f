import Verif.Spec.DfsMatrix
import Verif.Lemmas.Cfm
/-! # Plain conditions make a computation regular -/
namespace FT
open Spec

section
variable {env : Env} {targets : List Feat} {e : String}
  (hwf : ∀ g, NeededBy targets g → WellFormed env g) (hns : ∀ f ∈ targets, ∀ n, f.kind ≠ .slice n)
  (hte : ∀ f ∈ targets, f.entity = e)
include hwf hns

theorem planned_whole {hidden p f full} (h : Planned targets hidden p f full) : WholeFeature f := by
  cases h with
  | target hf _ => exact hns _ hf
  | dep hp hd he _ => exact (unslice_wf (hwf _ (neededBy_dep hp.neededBy hd)) he).2

include hte

/-- As `dep_entity`, from well-formedness alone. -/
theorem planned_at {hidden p f full} (h : Planned targets hidden p f full) : f.entity = pathEnd e p := by
  induction h with
  | target hf _ => exact hte _ hf
  | @dep p f full d b hp hd he _ ih =>
    have hw := hwf _ hp.neededBy
    rw [(unslice_wf (hwf _ (neededBy_dep hp.neededBy hd)) he).1]
    have hns := planned_whole hwf hns hp
    obtain ⟨_, _, _, hw⟩ := hw
    cases hk : f.kind with
    | identity v =>
      simp only [hk] at hw
      rw [hw.2.2.1, hw.2.2.2.1] at hd
      rcases hd with h | h <;> cases h
    | slice n => exact absurd hk (hns n)
    | direct r =>
      simp only [hk] at hw
      obtain ⟨_, _, hwh, b, hb, hbe, _⟩ := hw
      rw [hwh, hb] at hd
      rcases hd with h | h
      · simp at h; subst h
        rw [path_direct hk, pathEnd_append _ _ _ (by simp)]
        exact hbe
      · cases h
    | agg path prim prev u =>
      simp only [hk] at hw
      obtain ⟨_, _, _, _, ⟨ce, hpd, hde⟩, _⟩ := hw
      rw [path_agg hk, pathEnd_append _ _ _ (by simpa using hpd.ne_nil), hpd.pathEnd]
      exact (hde d hd).1
    | trans prim =>
      simp only [hk] at hw
      obtain ⟨_, hwh, hde, _⟩ := hw
      rw [hwh] at hd
      rcases hd with h | h
      · rw [path_trans hk, List.append_nil, (hde d h).1]; exact ih
      · cases h
    | groupby prim =>
      simp only [hk] at hw
      obtain ⟨_, hwh, hde, _⟩ := hw
      rw [hwh] at hd
      rcases hd with h | h
      · rw [path_groupby hk, List.append_nil, (hde d h).1]; exact ih
      · cases h

theorem planned_pathOk {hidden p f full} (h : Planned targets hidden p f full) : PathOk env e p := by
  induction h with
  | target _ _ => exact .nil _ _
  | @dep p f full d b hp hd he _ ih =>
    refine PathOk.append ih ?_
    rw [← planned_at hwf hns hte hp]
    exact pathOk_feature (hwf _ hp.neededBy) (planned_whole hwf hns hp)

end

theorem planned_on_edges {targets : List Feat} {rels : List Relationship} (hrel : ∀ f, NeededBy targets f → ∀ x ∈ f.path, x.2 ∈ rels) {hidden p f full}
    (h : Planned targets hidden p f full) : ∀ x ∈ p, x.2 ∈ rels := by
  induction h with
  | target _ _ => simp
  | dep hp hd he _ ih =>
    intro x hx
    rcases List.mem_append.mp hx with hx | hx
    · exact ih x hx
    · exact hrel _ hp.neededBy x hx

theorem linksFrom_linkCol {env : Env} {plan : List Edge → NodeVal} {e : String} : ∀ (q p : List Edge) (ls : List Link),
    PathOk env e (p ++ q) → (∀ x ∈ q, x.2 ∈ env.rels) → (∀ l ∈ ls, LinkCol env.rels (pathEnd e p) l.1 l.2.1) →
    ∀ l ∈ linksFrom env.rels plan p ls q, LinkCol env.rels (pathEnd e (p ++ q)) l.1 l.2.1
  | [], p, ls, _, _, h => by simpa [linksFrom] using h
  | (b, r) :: q, p, ls, hok, hr, h => by
    intro l hl
    have h0 := hok p b r q rfl
    rw [show p ++ (b, r) :: q = (p ++ [(b, r)]) ++ q by simp] at hok ⊢
    refine linksFrom_linkCol q _ _ hok (fun x hx => hr x (by simp [hx])) (fun l hl => ?_) l hl
    rw [pathEnd_append _ _ _ (by simp)]
    cases b with
    | true => simp [linkStep] at hl
    | false =>
      simp only [linkStep, List.mem_append, List.mem_map, List.mem_cons, List.not_mem_nil, or_false] at hl
      have hend : pathEnd (pathEnd e p) [(false, r)] = r.childE := rfl
      rcases hl with ⟨l', hl', rfl⟩ | rfl
      · have h1 := h l' hl'
        rw [← h0.2] at h1
        exact .above r (hr (false, r) (by simp)) (by simpa using h1)
      · exact .key r (hr (false, r) (by simp))

theorem up_chain_null {env : Env} (hw : env.window.all Window.hasNoObservations = true) : ∀ {chain : List Relationship},
    (∀ r ∈ chain, EntityOk env r.childE) → (worldOf env).up chain .null = .null
  | [], _ => rfl
  | r :: chain, h => by
    show (worldOf env).up chain ((worldOf env).cell r.childE .null r.childV) = .null
    rw [cell_absent (visible_ids (h r (by simp)) hw).2]
    exact up_chain_null hw fun x hx => h x (by simp [hx])

/-- What a foreign key brought down means. -/
theorem keyOf_meaning {env : Env} {targets : List Feat} (hw : env.window.all Window.hasNoObservations = true)
    (hwf : ∀ g, NeededBy targets g → WellFormed env g) {f : Feat} {chain : List Relationship} (h : KeyOf f chain) :
    NeededBy targets f → (∀ id, meaning (worldOf env) f id = [(worldOf env).up chain id]) ∧ f.names.length = 1 ∧
      (∀ r ∈ chain, EntityOk env r.childE) ∧ ∃ r rs, chain = r :: rs ∧ r.childE = f.entity := by
  induction h with
  | @column f r hk he =>
    intro hf
    have := hwf f hf
    obtain ⟨_, _, hE, hw'⟩ := this
    simp only [hk] at hw'
    refine ⟨fun id => ?_, by rw [hw'.2.1]; rfl, by simpa [← he] using hE, r, [], rfl, he.symm⟩
    obtain ⟨i, bs, wh⟩ := f
    simp only [Feat.kind, Feat.info] at hk
    simp only [Feat.entity, Feat.info] at he
    simp only [meaning, meaningStep, hk, he]
    rfl
  | @down f b r chain hk hb he hd _ ih =>
    intro hf
    have hbn : NeededBy targets b := neededBy_dep hf (.inl (by rw [hb]; simp))
    obtain ⟨ih1, ih2, ih3, r', rs', ih4, ih5⟩ := ih hbn
    have := hwf f hf
    obtain ⟨_, _, hE, hw'⟩ := this
    simp only [hk] at hw'
    obtain ⟨hr, _, _, b', hb', hbe, hlen⟩ := hw'
    rw [hb] at hb'; cases hb'
    refine ⟨fun id => ?_, by omega, fun x hx => ?_, r, chain, rfl, he.symm⟩
    · obtain ⟨i, bs, wh⟩ := f
      simp only [Feat.kind, Feat.info] at hk
      simp only [Feat.entity, Feat.info] at he
      simp only [Feat.bases] at hb
      simp only [Feat.dflt, Feat.info] at hd
      subst hb
      simp only [meaning, meanings, meaningStep, hk, he, hd]
      show _ = [(worldOf env).up chain ((worldOf env).cell r.childE id r.childV)]
      split
      · rw [ih1]
        simp only [List.map_cons, List.map_nil, orElse]
        split
        · next h => rw [h]
        · rfl
      · next hn =>
        have hone : i.names.length = 1 := by simpa [Feat.names, Feat.info] using (show (Feat.mk i [b] wh).names.length = 1 by omega)
        obtain ⟨n, hn1⟩ := List.length_eq_one_iff.mp hone
        rw [hn1]
        subst ih4
        show [Val.null] = [(worldOf env).up rs' ((worldOf env).cell r'.childE _ r'.childV)]
        rw [ih5, hbe, cell_absent hn]
        rw [up_chain_null hw fun x hx => ih3 x (by simp [hx])]
    · rcases List.mem_cons.mp hx with rfl | hx
      · exact he ▸ hE
      · exact ih3 x hx

/-- Nothing needs the full entity. -/
theorem need_false {targets : List Feat} (hno : ∀ f, NeededBy targets f → f.usesFull = false) (p : List Edge) :
    (planAt (buildTrie targets (Trie.new [])) p).need = false := by
  cases h : (planAt (buildTrie targets (Trie.new [])) p).need with
  | false => rfl
  | true =>
    obtain ⟨p', g, hg, _⟩ := (plan_spec targets Given.none p).2.2.mp h
    have : ∀ {p f full}, Planned targets Given.none.names p f full → full = false := by
      intro p f full h
      induction h with
      | target hf hn => exact hno _ ⟨_, hf, .inl rfl⟩
      | dep hp hd hu hn ih =>
        rw [ih, Bool.false_or]
        exact hno _ (Planned.neededBy (.dep hp hd hu hn))
    exact absurd (this hg) (by simp)

/-- Two direct features over one relationship have different base columns. -/
theorem direct_apart {env : Env} {targets : List Feat} (hwf : ∀ g, NeededBy targets g → WellFormed env g)
    (hdirect : ∀ f r, NeededBy targets f → f.kind = .direct r → ∀ b ∈ f.bases, SingleOutput b)
    (hsame : ∀ f g r, NeededBy targets f → NeededBy targets g → f.kind = .direct r → g.kind = .direct r → f.bases = g.bases → f.name = g.name)
    (identify : NamesIdentify targets) {f g : Feat} {r : Relationship} (hf : NeededBy targets f) (hg : NeededBy targets g) (hkf : f.kind = .direct r)
    (hkg : g.kind = .direct r) (hne : f ≠ g) : ∀ a ∈ f.bases, ∀ b ∈ g.bases, ∀ n ∈ a.names, n ∉ b.names := by
  intro a ha b hb n hna hnb
  have h1 := hdirect f r hf hkf a ha
  have h2 := hdirect g r hg hkg b hb
  rw [h1] at hna; rw [h2] at hnb
  simp only [List.mem_singleton] at hna hnb
  have wf := (hwf f hf).2.2.2
  have wg := (hwf g hg).2.2.2
  simp only [hkf] at wf
  simp only [hkg] at wg
  obtain ⟨_, hfe, _, a', hfa, hae, _⟩ := wf
  obtain ⟨_, hge, _, b', hgb, hbe, _⟩ := wg
  rw [hfa] at ha; rw [hgb] at hb
  simp only [List.mem_singleton] at ha hb
  subst ha hb
  have hab : a = b := identify a b (neededBy_dep hf (.inl (by rw [hfa]; simp))) (neededBy_dep hg (.inl (by rw [hgb]; simp)))
    (by simp only [Feat.uniqueName, hae, hbe, ← hna, ← hnb])
  apply hne
  refine identify f g hf hg ?_
  simp only [Feat.uniqueName, ← hfe, ← hge]
  rw [hsame f g r hf hg hkf hkg (by rw [hfa, hgb, hab])]

/-- Plain conditions make a computation regular. -/
theorem regular_of_apart {env : Env} {targets : List Feat} {e : String} (hE : EntityOk env e)
    (hw : env.window.all Window.hasNoObservations = true)
    (hwf : ∀ g, NeededBy targets g → WellFormed env g) (hns : ∀ f ∈ targets, WholeFeature f) (hte : ∀ f ∈ targets, f.entity = e)
    (hrel : ∀ f, NeededBy targets f → ∀ x ∈ f.path, x.2 ∈ env.rels)
    (hdirect : ∀ f r, NeededBy targets f → f.kind = .direct r → ∀ b ∈ f.bases, SingleOutput b)
    (hsame : ∀ f g r, NeededBy targets f → NeededBy targets g → f.kind = .direct r → g.kind = .direct r → f.bases = g.bases → f.name = g.name)
    (A : NamesApart env targets) : Regular env targets e := by
  have hent {p f full} (h : Planned targets noHidden p f full) := planned_at hwf hns hte h
  have hlink {p q f full} (h : Planned targets noHidden (p ++ q) f full) : ∀ l ∈ linksFrom env.rels (planAt (buildTrie targets (Trie.new []))) [] [] p,
      LinkCol env.rels (pathEnd e p) l.1 l.2.1 := by
    have := linksFrom_linkCol (env := env) (plan := planAt (buildTrie targets (Trie.new []))) (e := e) p [] []
      ((planned_pathOk hwf hns hte h).of_prefix (List.prefix_append _ _)) (fun x hx => planned_on_edges hrel h x (by simp [hx])) (by simp)
    simpa using this
  have hnonid {f : Feat} (h : f.isIdentity = false) : ∀ v, f.kind ≠ .identity v := by
    intro v hk; simp [Feat.isIdentity, hk] at h
  refine ⟨hte, hns, hE, hw, A.identify, hwf, ?_, ?_, ?_, ?_, ?_, ?_⟩
  · intro p f full hp hi
    exact A.keys f hp.neededBy (planned_whole hwf hns hp) (hnonid hi)
  · intro p f g full full' hf hg hne
    exact A.columns f g hf.neededBy hg.neededBy (planned_whole hwf hns hf) (planned_whole hwf hns hg) ((hent hf).trans (hent hg).symm) hne
  · intro p q f full hf l hl hlen
    exact A.linkKeys _ _ _ (hlink hf l hl) hlen
  · intro p f full hf l hl hlen hm
    have hlc := hlink (q := []) (by simpa using hf) l hl
    obtain ⟨hk, hno⟩ := A.linkFeatures _ _ _ hlc hlen f hf.neededBy (planned_whole hwf hns hf) (hent hf) hm
    obtain ⟨hmean, hlen1, _, _⟩ := keyOf_meaning hw hwf hk hf.neededBy
    obtain ⟨n, hn⟩ := List.length_eq_one_iff.mp hlen1
    rw [hn] at hm
    simp only [List.mem_singleton] at hm
    refine ⟨by rw [hn, hm], ?_, ?_, hmean, .inr (need_false hno p)⟩
    · generalize l.2.1 = c at hk hlen
      cases hk with
      | column r => simp at hlen
      | down r hk => exact ⟨r, hk⟩
    · generalize l.2.1 = c at hk hlen
      cases hk with
      | column r => simp at hlen
      | down r _ _ _ hd => exact hd
  · intro p f g full full' hf hg
    exact A.paths f g hf.neededBy hg.neededBy (planned_whole hwf hns hf) (planned_whole hwf hns hg) ((hent hf).trans (hent hg).symm)
  · rintro p f g full full' hf hg ⟨r, hkf, hkg⟩ hne
    exact direct_apart hwf hdirect hsame A.identify hf.neededBy hg.neededBy hkf hkg hne

end FT
