import Verif.Lemmas.NodeBasics
/-! # Computing all features of a node -/
namespace FT
open Spec

/-- The frame below, at the end of the path of `f`, is good for computing `f` on the rows `I`. -/
def SubFrameOk (env : Env) (M : Feat → Val → List Val) (e : String) (I : List Val) (dfs : DTrie) (f : Feat) : Prop :=
  ∃ base, (Trie.nodeAt none f.path dfs).value = some base ∧
    (base.rows.map fun r => r (indexOf env (pathEnd e f.path))).Sublist ((worldOf env).ids (pathEnd e f.path)) ∧
    indexOf env (pathEnd e f.path) ∈ base.cols ∧
    (∀ d, d ∈ f.bases ∨ d ∈ f.wh → ∀ b, unslice d = some b → (∀ n ∈ b.names, n ∈ base.cols) ∧
      ∀ r ∈ base.rows, b.names.map r = M b (r (indexOf env (pathEnd e f.path)))) ∧
    (∀ ti, (worldOf env).timeIndex (pathEnd e f.path) = some ti → ∀ r ∈ base.rows,
      r ti = (worldOf env).cell (pathEnd e f.path) (r (indexOf env (pathEnd e f.path))) ti) ∧
    (∀ r, f.kind = .direct r → ∀ x ∈ I, (worldOf env).cell e x r.childV ∈ (worldOf env).ids r.parentE →
      (worldOf env).cell e x r.childV ∈ base.rows.map fun r => r (indexOf env (pathEnd e f.path))) ∧
    ∀ path a b c, f.kind = .agg path a b c → relationshipVariableId path ∈ base.cols ∧
      (∀ r ∈ base.rows, r (relationshipVariableId path) = (worldOf env).up path.reverse (r (indexOf env (pathEnd e f.path)))) ∧
      ∀ x ∈ (worldOf env).ids (pathEnd e f.path), (worldOf env).up path.reverse x ∈ I →
        x ∈ base.rows.map fun r => r (indexOf env (pathEnd e f.path))

/-- What is known while the features of a node are computed. -/
structure NodeCtx (env : Env) (targets : List Feat) (G : Given) (e0 : String) (p : List Edge) (B : List String)
    (lok : Link → Val → Prop) (I : List Val) (dfs : DTrie) (fs : List Feat) (D0 : Feat → Prop) : Prop where
  regular : RegularFor env targets G e0
  baseCols : ∀ c ∈ B, c ∈ env.keyCols (pathEnd e0 p) ∨ ∃ g full, Planned targets G.names p g full ∧ g.isIdentity = true ∧ g.names = [c]
  keyCols : ∀ c ∈ env.keyCols (pathEnd e0 p), c ∈ B
  entity : EntityOk env (pathEnd e0 p)
  vars : ∀ f ∈ fs, ∀ v, f.kind = .identity v → v ∈ B
  short : ∀ l ∈ linksOf env targets G p, ¬ 1 < l.2.1.length → l.1 ∈ env.keyCols (pathEnd e0 p)
  lok : ∀ l ∈ linksOf env targets G p, (l.2.2 = true ∨ (planAt (buildTrie targets G.trie) p).need = false) → ∀ x ∈ I, lok l x
  sub : I.Sublist ((worldOf env).ids (pathEnd e0 p))
  planned : ∀ f ∈ fs, ∃ full, Planned targets G.names p f full
  nodup : fs.Nodup
  done : ∀ f, D0 f → AtNode targets G.names p f
  notDone : ∀ f ∈ fs, ¬ D0 f
  closed : ∀ f ∈ fs, f.path = [] → ∀ d, d ∈ f.bases ∨ d ∈ f.wh → ∀ b, unslice d = some b → D0 b ∨ b ∈ fs
  full : ∀ f ∈ fs, f.usesFull = true → I = (worldOf env).ids (pathEnd e0 p)
  below : ∀ f ∈ fs, f.path ≠ [] → SubFrameOk env (meaningAt (worldOf env) G (p ++ f.path)) (pathEnd e0 p) I dfs f

section
variable {env : Env} {targets : List Feat} {G : Given} {e0 : String} {p : List Edge} {B : List String}
  {lok : Link → Val → Prop} {I : List Val} {dfs : DTrie} {fs : List Feat} {D0 : Feat → Prop}

theorem new_names (C : NodeCtx env targets G e0 p B lok I dfs fs D0) {D : Feat → Prop} {t : Table}
    (h : FrameOk (worldOf env) (meaningAt (worldOf env) G p) (indexOf env (pathEnd e0 p)) (pathEnd e0 p) B (linksOf env targets G p) lok D I t)
    (hD : ∀ g, D g → AtNode targets G.names p g) (f : Feat) (hf : ∃ full, Planned targets G.names p f full)
    (hi : f.isIdentity = false) (hnd : ¬ D f) :
    (∀ n ∈ f.names, n ∉ t.cols) ∨ (∃ r, f.kind = .direct r) ∧
      ((∀ n ∈ f.names, n ∈ t.cols) ∧ f.dflt = .null ∧ ∀ r ∈ t.rows, f.names.map r = meaningAt (worldOf env) G p f (r (indexOf env (pathEnd e0 p)))) := by
  obtain ⟨full, hf⟩ := hf
  have he := planned_entity C.regular hf
  by_cases hcl : ∃ n ∈ f.names, n ∈ t.cols
  · right
    obtain ⟨n, hn, hc⟩ := hcl
    rcases h.only n hc with hB | ⟨l, hl, hln⟩ | ⟨g, hg, hgn⟩
    · rcases C.baseCols n hB with hk | ⟨g, gf, hg, hgi, hgn⟩
      · exact absurd (he ▸ hk) (C.regular.notKey p f (.inl ⟨full, hf⟩) hi n hn)
      · have : f ≠ g := by rintro rfl; rw [hi] at hgi; cases hgi
        exact absurd (by rw [hgn]; simp) (C.regular.disjoint p f g (.inl ⟨full, hf⟩) (.inl ⟨gf, hg⟩) this n hn)
    · by_cases hlen : 1 < l.2.1.length
      · obtain ⟨hns, hdir, hdf, hm, hfl⟩ := C.regular.linkClash p f full hf l hl hlen (by rw [hln]; exact hn)
        refine ⟨hdir, ?_, hdf, ?_⟩
        · rw [hns]; intro m hm; simp at hm; subst hm; exact (h.link l hl).1
        · intro r hr
          rw [hns, hm]
          simp only [List.map_cons, List.map_nil]
          rw [(h.link l hl).2 r hr (C.lok l hl hfl _ (by rw [← h.ids]; exact List.mem_map.mpr ⟨r, hr, rfl⟩))]
      · exact absurd (he ▸ (hln ▸ C.short l hl hlen)) (C.regular.notKey p f (.inl ⟨full, hf⟩) hi n hn)
    · have hgp := hD g hg
      have : f ≠ g := by rintro rfl; exact hnd hg
      exact absurd hgn (C.regular.disjoint p f g (.inl ⟨full, hf⟩) hgp this n hn)
  · left
    intro n hn hc
    exact hcl ⟨n, hn, hc⟩

/-- One group of features. -/
theorem calcGroup_ok (C : NodeCtx env targets G e0 p B lok I dfs fs D0) {D : Feat → Prop} {t : Table}
    (h : FrameOk (worldOf env) (meaningAt (worldOf env) G p) (indexOf env (pathEnd e0 p)) (pathEnd e0 p) B (linksOf env targets G p) lok D I t)
    (hD : ∀ g, D g → AtNode targets G.names p g)
    (g : List Feat) (hne : g ≠ []) (hsub : ∀ f ∈ g, f ∈ fs) (hnodup : g.Nodup) (hnot : ∀ f ∈ g, ¬ D f)
    (hdeps : ∀ f ∈ g, f.path = [] → ∀ d, d ∈ f.bases ∨ d ∈ f.wh → ∀ b, unslice d = some b → D b)
    (halike : ∀ a ∈ g, ∀ b ∈ g, className a = className b ∧ a.pathName env.rels = b.pathName env.rels ∧
      getWhere a = getWhere b ∧ getGroupby a = getGroupby b ∧ a.usesFull = b.usesFull ∧ getUsePrevious a = getUsePrevious b) :
    ∃ t', calcGroup env (indexOf env (pathEnd e0 p)) g t dfs = .ok t' ∧
      FrameOk (worldOf env) (meaningAt (worldOf env) G p) (indexOf env (pathEnd e0 p)) (pathEnd e0 p) B (linksOf env targets G p) lok (fun f => D f ∨ f ∈ g) I t' := by
  have R := C.regular
  have hidx : indexOf env (pathEnd e0 p) ∈ B := C.keyCols _ C.entity.indexKey
  obtain ⟨f0, rest, hg⟩ : ∃ f l, g = f :: l := by
    cases g with
    | nil => exact absurd rfl hne
    | cons a l => exact ⟨a, l, rfl⟩
  have hf0 : f0 ∈ g := by simp [hg]
  have hpl : ∀ f ∈ g, ∃ full, Planned targets G.names p f full := fun f hf => C.planned f (hsub f hf)
  have hwf : ∀ f ∈ g, WellFormed env f := fun f hf => by
    obtain ⟨_, hp⟩ := hpl f hf
    exact R.wf f hp.neededBy
  have hent : ∀ f ∈ g, f.entity = pathEnd e0 p := fun f hf => by
    obtain ⟨_, hp⟩ := hpl f hf
    exact planned_entity R hp
  have hdwf : ∀ f ∈ g, ∀ d, d ∈ f.bases ∨ d ∈ f.wh → WellFormed env d := fun f hf d hd => by
    obtain ⟨_, hp⟩ := hpl f hf
    exact R.wf d (neededBy_dep hp.neededBy hd)
  have hnn : ∀ f ∈ g, f.names ≠ [] := fun f hf => (hwf f hf).1
  have hnd : ∀ f ∈ g, f.names.Nodup := fun f hf => (hwf f hf).2.1
  have hdisj : ∀ f ∈ g, ∀ f' ∈ g, f ≠ f' → ∀ n ∈ f.names, n ∉ f'.names := fun f hf f' hf' hne => by
    obtain ⟨_, hp⟩ := hpl f hf
    obtain ⟨_, hp'⟩ := hpl f' hf'
    exact R.disjoint p f f' (.inl ⟨_, hp⟩) (.inl ⟨_, hp'⟩) hne
  have hV : ((worldOf env).ids (pathEnd e0 p)).Nodup := (visible_ids C.entity R.window).1
  have hnew : ∀ f ∈ g, f.isIdentity = false → _ := fun f hf hi => new_names C h hD f (hpl f hf) hi (hnot f hf)
  have hkind : ∀ f ∈ g, _ := fun f hf => className_kind f0 f (halike f0 hf0 f hf).1
  -- the columns of dependencies on the same entity
  have hdep : ∀ f ∈ g, f.path = [] → ∀ d ∈ f.bases, d.names = [d.name] →
      d.name ∈ t.cols ∧ ∀ r ∈ t.rows, r d.name = one (meaningAt (worldOf env) G p d) (r (indexOf env (pathEnd e0 p))) := by
    intro f hf hpa d hd hs
    have hw := hdwf f hf d (.inl hd)
    obtain ⟨b, hb⟩ := unslice_some hw
    have := h.done b (hdeps f hf hpa d (.inl hd) b hb)
    exact dep_column hw hs hb this.1 this.2
  have hM : ∀ f ∈ g, meaningAt (worldOf env) G p f = meaningStep (worldOf env) f.info
      (f.bases.map (meaningAt (worldOf env) G (p ++ f.path))) (f.wh.map (meaningAt (worldOf env) G (p ++ f.path))) := by
    intro f hf
    obtain ⟨_, hp⟩ := hpl f hf
    exact meaningAt_planned R hp _
  have hM0 : (∀ f ∈ g, f.path = []) → ∀ f ∈ g, meaningAt (worldOf env) G p f = meaningStep (worldOf env) f.info
      (f.bases.map (meaningAt (worldOf env) G p)) (f.wh.map (meaningAt (worldOf env) G p)) := by
    intro h0 f hf
    have := hM f hf
    rwa [h0 f hf, List.append_nil] at this
  cases hk : f0.kind with
  | identity v =>
    have hall : ∀ f ∈ g, ∃ v, f.kind = .identity v := by
      intro f hf
      have := hkind f hf
      rw [hk] at this
      cases hkf : f.kind <;> simp_all
    have hcalc : calcGroup env (indexOf env (pathEnd e0 p)) g t dfs = calcIdentity g t := by
      subst hg; simp only [calcGroup, hk]
    rw [hcalc]
    refine calcIdentity_ok h hidx g (hM0 fun f hf => path_identity (hall f hf).choose_spec) ?_
    intro f hf
    obtain ⟨v, hv⟩ := hall f hf
    have hw := (hwf f hf).2.2.2
    simp only [hv] at hw
    refine ⟨v, hv, hent f hf, hw.1, ?_, C.vars f (hsub f hf) v hv⟩
    have : f.names = [f.name] := hw.2.1
    rw [this, hw.1]
  | slice n =>
    obtain ⟨_, hp⟩ := hpl f0 hf0
    exact absurd hk (planned_not_slice R hp n)
  | trans prim =>
    have hall : ∀ f ∈ g, ∃ v, f.kind = .trans v := by
      intro f hf
      have := hkind f hf
      rw [hk] at this
      cases hkf : f.kind <;> simp_all
    have hcalc : calcGroup env (indexOf env (pathEnd e0 p)) g t dfs = calcTrans env g t := by
      subst hg; simp only [calcGroup, hk]
    rw [hcalc]
    refine calcTrans_ok h hidx g (hM0 fun f hf => path_trans (hall f hf).choose_spec) ?_ ?_ hV C.sub hnd ?_ hdisj
    · intro f hf
      obtain ⟨v, hv⟩ := hall f hf
      have hw := (hwf f hf).2.2.2
      simp only [hv] at hw
      refine ⟨v, hv, hent f hf, hw.1, hw.2.2.2.1, hw.2.2.2.2, fun hu => C.full f (hsub f hf) ?_⟩
      simp [Feat.usesFull, hv, hu]
    · intro f hf d hd
      obtain ⟨v, hv⟩ := hall f hf
      have hw := (hwf f hf).2.2.2
      simp only [hv] at hw
      exact hdep f hf (path_trans hv) d hd (hw.2.2.1 d hd).2.1
    · intro f hf
      obtain ⟨v, hv⟩ := hall f hf
      rcases hnew f hf (by simp [Feat.isIdentity, hv]) with h1 | ⟨⟨r, hr⟩, _⟩
      · exact h1
      · rw [hv] at hr; cases hr
  | groupby prim =>
    have hall : ∀ f ∈ g, ∃ v, f.kind = .groupby v := by
      intro f hf
      have := hkind f hf
      rw [hk] at this
      cases hkf : f.kind <;> simp_all
    have hlast : ∀ f ∈ g, ∃ b, f.bases.getLast? = some b ∧ getGroupby f = b.uniqueName ∧ NeededBy targets b := by
      intro f hf
      obtain ⟨v, hv⟩ := hall f hf
      have hw := (hwf f hf).2.2.2
      simp only [hv] at hw
      have hbn : f.bases ≠ [] := by intro h0; rw [h0] at hw; exact hw.1 rfl
      refine ⟨f.bases.getLast hbn, List.getLast?_eq_some_getLast hbn, ?_, ?_⟩
      · simp only [getGroupby, hv, List.getLast?_eq_some_getLast hbn]
      · obtain ⟨_, hp⟩ := hpl f hf
        exact neededBy_dep hp.neededBy (.inl (List.getLast_mem hbn))
    obtain ⟨grp, hgl, hgg, hgn⟩ := hlast f0 hf0
    have hshare : ∀ f ∈ g, f.bases.getLast? = some grp := by
      intro f hf
      obtain ⟨b, hb, hbg, hbn⟩ := hlast f hf
      have := (halike f hf f0 hf0).2.2.2.1
      rw [hbg, hgg] at this
      rw [hb, R.names b grp hbn hgn this]
    have hcalc : calcGroup env (indexOf env (pathEnd e0 p)) g t dfs = calcGroupby env (indexOf env (pathEnd e0 p)) g t := by
      subst hg; simp only [calcGroup, hk]
    rw [hcalc]
    refine calcGroupby_ok h hidx g hne grp (hM0 fun f hf => path_groupby (hall f hf).choose_spec) ?_ ?_ hV C.sub hnd ?_ hdisj
    · intro f hf
      obtain ⟨v, hv⟩ := hall f hf
      have hw := (hwf f hf).2.2.2
      simp only [hv] at hw
      refine ⟨v, hv, hent f hf, hshare f hf, hw.1, hw.2.2.2.1, hw.2.2.2.2, fun hu => C.full f (hsub f hf) ?_⟩
      simp [Feat.usesFull, hv, hu]
    · intro f hf d hd
      obtain ⟨v, hv⟩ := hall f hf
      have hw := (hwf f hf).2.2.2
      simp only [hv] at hw
      exact hdep f hf (path_groupby hv) d hd (hw.2.2.1 d hd).2.1
    · intro f hf
      obtain ⟨v, hv⟩ := hall f hf
      rcases hnew f hf (by simp [Feat.isIdentity, hv]) with h1 | ⟨⟨r, hr⟩, _⟩
      · exact h1
      · rw [hv] at hr; cases hr
  | direct rel =>
    have hpe : ∀ f ∈ g, f.path = [(true, rel)] := by
      intro f hf
      obtain ⟨_, hp⟩ := hpl f hf
      obtain ⟨_, hp0⟩ := hpl f0 hf0
      rw [R.paths p f f0 _ _ hp hp0 (halike f hf f0 hf0).1 (halike f hf f0 hf0).2.1, path_direct hk]
    have hall : ∀ f ∈ g, f.kind = .direct rel := by
      intro f hf
      have := hkind f hf
      rw [hk] at this
      have h2 := hpe f hf
      cases hkf : f.kind with
      | direct r => rw [path_direct hkf] at h2; cases h2; rfl
      | _ => simp [hkf] at this
    have hw0 := (hwf f0 hf0).2.2.2
    simp only [hk] at hw0
    obtain ⟨hrel, hce, _⟩ := hw0
    have hcalc : calcGroup env (indexOf env (pathEnd e0 p)) g t dfs = calcDirect g t dfs := by
      subst hg; simp only [calcGroup, hk]
    rw [hcalc]
    have hend : pathEnd (pathEnd e0 p) [(true, rel)] = rel.parentE := rfl
    obtain ⟨base, hval, hsl, hic, hbd, _, hcov, _⟩ := C.below f0 (hsub f0 hf0) (by rw [path_direct hk]; simp)
    rw [path_direct hk] at hval
    simp only [path_direct hk, hend] at hsl hic hbd hcov
    refine calcDirect_ok h hidx g hne hnodup rel dfs base _ (M' := meaningAt (worldOf env) G (p ++ [(true, rel)])) (fun f hf => by rw [hM f hf, hpe f hf]) hval rfl (by rw [hrel.parentIndex]; exact hic) ?_ ?_ ?_ ?_ ?_ hnd ?_ hdisj
    · rw [hrel.parentIndex]
      exact fun x hx => hsl.subset hx
    · rw [hrel.parentIndex]
      exact hcov rel hk
    · exact C.keyCols _ (by rw [← hent f0 hf0, ← hce]; exact hrel.childKey)
    · intro f hf
      have hkf := hall f hf
      have hw := (hwf f hf).2.2.2
      simp only [hkf] at hw
      obtain ⟨_, _, _, b, hb, _, hbl⟩ := hw
      have hbm : b ∈ f.bases := by rw [hb]; simp
      have hbw := hdwf f hf b (.inl hbm)
      obtain ⟨b', hb'⟩ := unslice_some hbw
      obtain ⟨base', hval', _, _, hbd', _⟩ := C.below f (hsub f hf) (by rw [path_direct hkf]; simp)
      rw [path_direct hkf, hval] at hval'
      cases hval'
      simp only [path_direct hkf, hend] at hbd'
      obtain ⟨h1, h2⟩ := hbd' b (.inl hbm) b' hb'
      obtain ⟨h3, h4⟩ := dep_columns hbw hb' h1 h2
      rw [hrel.parentIndex]
      exact ⟨b, hkf, hent f hf, hb, hbl, hbw.2.1, h3, h4⟩
    · intro f hf f' hf' hne'
      obtain ⟨_, hp⟩ := hpl f hf
      obtain ⟨_, hp'⟩ := hpl f' hf'
      exact R.directBases p f f' _ _ hp hp' ⟨rel, hall f hf, hall f' hf'⟩ hne'
    · intro f hf
      rcases hnew f hf (by simp [Feat.isIdentity, hall f hf]) with h1 | ⟨_, h2⟩
      · exact .inl h1
      · exact .inr h2
  | agg path prim prev u =>
    have hpe : ∀ f ∈ g, f.path = path.map fun r => (false, r) := by
      intro f hf
      obtain ⟨_, hp⟩ := hpl f hf
      obtain ⟨_, hp0⟩ := hpl f0 hf0
      rw [R.paths p f f0 _ _ hp hp0 (halike f hf f0 hf0).1 (halike f hf f0 hf0).2.1, path_agg hk]
    have hinj : ∀ a b : List Relationship, (a.map fun r => ((false, r) : Edge)) = (b.map fun r => (false, r)) → a = b := by
      intro a b hab
      exact List.map_inj_right (f := fun r : Relationship => ((false, r) : Edge)) (fun x y hxy => (Prod.mk.inj hxy).2) |>.mp hab
    have hw0 := (hwf f0 hf0).2.2.2
    simp only [hk] at hw0
    obtain ⟨_, _, _, hwl0, ⟨ce, hpd, hde⟩, hprev0, _⟩ := hw0
    have hall : ∀ f ∈ g, ∃ pr u', f.kind = .agg path pr prev u' := by
      intro f hf
      have := hkind f hf
      rw [hk] at this
      have h2 := hpe f hf
      cases hkf : f.kind with
      | agg path' pr prev' u' =>
        rw [path_agg hkf] at h2
        have := hinj _ _ h2
        subst this
        have hw := (hwf f hf).2.2.2
        simp only [hkf] at hw
        obtain ⟨_, _, _, _, _, hprev, _⟩ := hw
        have hup := (halike f hf f0 hf0).2.2.2.2.2
        have : prev' = prev := by
          unfold getUsePrevious at hup
          rw [hkf, hk] at hup
          cases prev' with
          | none =>
            cases prev with
            | none => rfl
            | some ts =>
              obtain ⟨u1, v1, rfl, hu1⟩ := hprev0 ts rfl
              simp only [Prod.mk.injEq] at hup
              exact absurd hup.1.symm hu1
          | some ts' =>
            obtain ⟨u1, v1, rfl, hu1⟩ := hprev ts' rfl
            cases prev with
            | none =>
              simp only [Prod.mk.injEq] at hup
              exact absurd hup.1 hu1
            | some ts =>
              obtain ⟨u2, v2, rfl, hu2⟩ := hprev0 ts rfl
              simp only [Prod.mk.injEq] at hup
              rw [hup.1, hup.2]
        subst this
        exact ⟨pr, u', rfl⟩
      | _ => simp [hkf] at this
    have hwh : ∀ f ∈ g, f.wh = f0.wh := by
      intro f hf
      obtain ⟨pr, u', hkf⟩ := hall f hf
      have hw := (hwf f hf).2.2.2
      simp only [hkf] at hw
      have hl := hw.2.2.2.1
      have heq := (halike f hf f0 hf0).2.2.1
      unfold getWhere at heq
      rw [hkf, hk] at heq
      cases h1 : f.wh with
      | nil =>
        cases h2 : f0.wh with
        | nil => rfl
        | cons b l => rw [h1, h2] at heq; exact absurd heq.symm (uniqueName_ne_empty b)
      | cons a l1 =>
        cases h2 : f0.wh with
        | nil => rw [h1, h2] at heq; exact absurd heq (uniqueName_ne_empty a)
        | cons b l2 =>
          rw [h1, h2] at heq
          obtain ⟨_, hp⟩ := hpl f hf
          obtain ⟨_, hp0⟩ := hpl f0 hf0
          have hab : a = b := R.names a b (neededBy_dep hp.neededBy (.inr (by rw [h1]; simp)))
            (neededBy_dep hp0.neededBy (.inr (by rw [h2]; simp))) heq
          rw [h1] at hl
          rw [h2] at hwl0
          have e1 : l1 = [] := by cases l1 with | nil => rfl | cons _ _ => simp at hl
          have e2 : l2 = [] := by cases l2 with | nil => rfl | cons _ _ => simp at hwl0
          rw [hab, e1, e2]
    have hcalc : calcGroup env (indexOf env (pathEnd e0 p)) g t dfs = calcAgg env (indexOf env (pathEnd e0 p)) g t dfs := by
      subst hg; simp only [calcGroup, hk]
    rw [hcalc]
    have hend : pathEnd (pathEnd e0 p) (path.map fun r => (false, r)) = ce := hpd.pathEnd _
    have hpne : (path.map fun r => ((false, r) : Edge)) ≠ [] := by simpa using hpd.ne_nil
    obtain ⟨base, hval, hsl, hic, hbd, hti, _, hagg⟩ := C.below f0 (hsub f0 hf0) (by rw [path_agg hk]; exact hpne)
    rw [path_agg hk] at hval
    simp only [path_agg hk, hend] at hsl hic hbd hti hagg
    obtain ⟨hgc, hgr, hgcov⟩ := hagg path prim prev u hk
    refine calcAgg_ok h hidx g hne path prev f0.wh ce (indexOf env ce) dfs base _ (M' := meaningAt (worldOf env) G (p ++ path.map fun r => (false, r))) (fun f hf => by rw [hM f hf, hpe f hf]) hpd.last_child hval rfl hsl ?_ hgc hgr hti hgcov
      hwl0 ?_ ?_ hnn hnd ?_ hdisj
    · have hb0 : ∃ d, d ∈ f0.bases := List.exists_mem_of_ne_nil _ (by
        have hw := (hwf f0 hf0).2.2.2
        simp only [hk] at hw
        exact hw.2.2.1)
      obtain ⟨d, hd⟩ := hb0
      have := (hdwf f0 hf0 d (.inl hd)).2.2.1
      rw [(hde d (.inl hd)).1] at this
      exact (visible_ids this R.window).1
    · intro f hf
      obtain ⟨pr, u', hkf⟩ := hall f hf
      have hw := (hwf f hf).2.2.2
      simp only [hkf] at hw
      obtain ⟨_, _, hb, _, ⟨ce', hpd', hde'⟩, _, hca, hsh⟩ := hw
      have hcc : ce' = ce := by
        have h1 := hpd'.last_child
        rw [hpd.last_child] at h1
        exact (Option.some.inj h1).symm
      subst hcc
      exact ⟨pr, u', hkf, hwh f hf, hb, fun b hb => (hde' b (.inl hb)).1, canAgg_single hca, hsh⟩
    · intro f hf d hd
      obtain ⟨pr, u', hkf⟩ := hall f hf
      have hw := (hwf f hf).2.2.2
      simp only [hkf] at hw
      obtain ⟨_, _, hb, _, ⟨ce', hpd', hde'⟩, _, hca, hsh⟩ := hw
      have hdw := hdwf f hf d hd
      obtain ⟨b, hb⟩ := unslice_some hdw
      obtain ⟨base', hval', _, _, hbd', _⟩ := C.below f (hsub f hf) (by rw [path_agg hkf]; exact hpne)
      rw [path_agg hkf, hval] at hval'
      cases hval'
      simp only [path_agg hkf, hend] at hbd'
      obtain ⟨h1, h2⟩ := hbd' d hd b hb
      exact dep_column hdw (hde' d hd).2 hb h1 h2
    · intro f hf
      obtain ⟨pr, u', hkf⟩ := hall f hf
      rcases hnew f hf (by simp [Feat.isIdentity, hkf]) with h1 | ⟨⟨r, hr⟩, _⟩
      · exact h1
      · rw [hkf] at hr; cases hr

/-- What is known of a group when the ones before it are done. -/
theorem groups_facts (C : NodeCtx env targets G e0 p B lok I dfs fs D0) {pre gs : List (List Feat)} {g : List Feat}
    (hsplit : groupFeatures env.rels fs = pre ++ g :: gs) :
    (∀ f, (D0 f ∨ f ∈ pre.flatten) → AtNode targets G.names p f) ∧ g ≠ [] ∧ (∀ f ∈ g, f ∈ fs) ∧ g.Nodup ∧
    (∀ f ∈ g, ¬ (D0 f ∨ f ∈ pre.flatten)) ∧
    (∀ f ∈ g, f.path = [] → ∀ d, d ∈ f.bases ∨ d ∈ f.wh → ∀ b, unslice d = some b → D0 b ∨ b ∈ pre.flatten) ∧
    ∀ a ∈ g, ∀ b ∈ g, className a = className b ∧ a.pathName env.rels = b.pathName env.rels ∧
      getWhere a = getWhere b ∧ getGroupby a = getGroupby b ∧ a.usesFull = b.usesFull ∧ getUsePrevious a = getUsePrevious b := by
  have R := C.regular
  obtain ⟨hperm, hne⟩ := C23_partition env.rels fs
  have hmem : ∀ f, f ∈ (groupFeatures env.rels fs).flatten ↔ f ∈ fs := fun f => hperm.mem_iff
  have hnd : (groupFeatures env.rels fs).flatten.Nodup := hperm.nodup_iff.mpr C.nodup
  have hids : NamesIdentify fs := by
    intro a b ha hb hab
    have key : ∀ c, NeededBy fs c → NeededBy targets c := by
      rintro c ⟨f, hf, hn⟩
      obtain ⟨_, hp⟩ := C.planned f hf
      rcases hn with rfl | hu
      · exact hp.neededBy
      · have : ∀ x y, Uses [] x y → NeededBy targets x → NeededBy targets y := by
          intro x y hu
          induction hu with
          | direct hm _ => exact fun hx => neededBy_dep hx hm
          | deep hm _ _ ih => exact fun hx => ih (neededBy_dep hx hm)
        exact this _ _ hu hp.neededBy
    exact R.names a b (key a ha) (key b hb) hab
  have hg : g ∈ groupFeatures env.rels fs := by rw [hsplit]; simp
  have hat : (groupFeatures env.rels fs)[pre.length]? = some g := by rw [hsplit]; simp
  have hsub : ∀ f ∈ g, f ∈ fs := fun f hf => (hmem f).mp (List.mem_flatten.mpr ⟨g, hg, hf⟩)
  rw [hsplit, List.flatten_append, List.flatten_cons] at hnd
  obtain ⟨_, hnd2, hnd3⟩ := List.nodup_append.mp hnd
  obtain ⟨hgn, _, _⟩ := List.nodup_append.mp hnd2
  refine ⟨?_, hne g hg, hsub, hgn, ?_, ?_, fun a ha b hb => groupKey_alike env.rels fs g hg a ha b hb⟩
  · rintro f (hf | hf)
    · exact C.done f hf
    · exact .inl <| C.planned f ((hmem f).mp (by rw [hsplit, List.flatten_append]; simp only [List.mem_append]; exact .inl hf))
  · intro f hf hD
    rcases hD with hD | hD
    · exact C.notDone f (hsub f hf) hD
    · exact hnd3 f hD f (by simp [hf]) rfl
  · intro f hf hpa d hd b hb
    rcases C.closed f (hsub f hf) hpa d hd b hb with hD | hbf
    · exact .inl hD
    · right
      -- the dependency is in an earlier group
      have hsd : SameEntityDep f b := by
        obtain ⟨_, hp⟩ := C.planned f (hsub f hf)
        have hw := R.wf d (neededBy_dep hp.neededBy hd)
        rcases unslice_cases hb with ⟨_, rfl⟩ | ⟨n, hk, hh⟩
        · exact .direct hpa hd
        · refine .deep hpa hd (.direct ?_ (.inl (List.mem_of_head? hh)))
          have hwf := (R.wf f hp.neededBy).2.2.2
          cases hkf : f.kind with
          | identity v =>
            simp only [hkf] at hwf
            rw [hwf.2.2.1, hwf.2.2.2.1] at hd
            rcases hd with h | h <;> cases h
          | slice n => exact absurd hkf (planned_not_slice R hp n)
          | direct r => rw [path_direct hkf] at hpa; cases hpa
          | agg path a b c =>
            simp only [hkf] at hwf
            obtain ⟨_, _, _, _, ⟨ce, hpd, _⟩, _⟩ := hwf
            rw [path_agg hkf] at hpa
            exact absurd hpa (by simpa using hpd.ne_nil)
          | trans pr =>
            simp only [hkf] at hwf
            rw [hwf.2.1] at hd
            rcases hd with h | h
            · exact (hwf.2.2.1 d h).2.2 n hk
            · cases h
          | groupby pr =>
            simp only [hkf] at hwf
            rw [hwf.2.1] at hd
            rcases hd with h | h
            · exact (hwf.2.2.1 d h).2.2 n hk
            · cases h
      obtain ⟨gb, hgb, hbg⟩ := List.mem_flatten.mp ((hmem b).mpr hbf)
      obtain ⟨i, hi, hget⟩ := List.getElem_of_mem hgb
      have hlt : i < pre.length := C23_dependencies_first env.rels fs hids f b (hsub f hf) hsd i pre.length
        ⟨gb, by rw [List.getElem?_eq_getElem hi, hget], hbg⟩ ⟨g, hat, hf⟩
      refine List.mem_flatten.mpr ⟨gb, ?_, hbg⟩
      have : (pre ++ g :: gs)[i]? = some gb := by rw [← hsplit, List.getElem?_eq_getElem hi, hget]
      rw [List.getElem?_append_left hlt] at this
      exact List.mem_of_getElem? this

/-- All groups. -/
theorem calcFeatures_ok (C : NodeCtx env targets G e0 p B lok I dfs fs D0) {t : Table}
    (h : FrameOk (worldOf env) (meaningAt (worldOf env) G p) (indexOf env (pathEnd e0 p)) (pathEnd e0 p) B (linksOf env targets G p) lok D0 I t) :
    ∃ t', calcFeatures env (indexOf env (pathEnd e0 p)) fs t dfs = .ok t' ∧
      FrameOk (worldOf env) (meaningAt (worldOf env) G p) (indexOf env (pathEnd e0 p)) (pathEnd e0 p) B (linksOf env targets G p) lok (fun f => D0 f ∨ f ∈ fs) I t' := by
  obtain ⟨hperm, hne⟩ := C23_partition env.rels fs
  have hmem : ∀ f, f ∈ (groupFeatures env.rels fs).flatten ↔ f ∈ fs := fun f => hperm.mem_iff
  have loop : ∀ (gs pre : List (List Feat)) (t : Table), groupFeatures env.rels fs = pre ++ gs →
      FrameOk (worldOf env) (meaningAt (worldOf env) G p) (indexOf env (pathEnd e0 p)) (pathEnd e0 p) B (linksOf env targets G p) lok
        (fun f => D0 f ∨ f ∈ pre.flatten) I t →
      ∃ t', calcGroups env (indexOf env (pathEnd e0 p)) dfs gs t = .ok t' ∧
        FrameOk (worldOf env) (meaningAt (worldOf env) G p) (indexOf env (pathEnd e0 p)) (pathEnd e0 p) B (linksOf env targets G p) lok
          (fun f => D0 f ∨ f ∈ (pre ++ gs).flatten) I t' := by
    intro gs
    induction gs with
    | nil =>
      intro pre t hsplit h
      exact ⟨t, rfl, by simpa using h⟩
    | cons g gs ih =>
      intro pre t hsplit h
      obtain ⟨f1, f2, f3, f4, f5, f6, f7⟩ := groups_facts C hsplit
      obtain ⟨t1, ht1, h1⟩ := calcGroup_ok C h f1 g f2 f3 f4 f5 f6 f7
      obtain ⟨t2, ht2, h2⟩ := ih (pre ++ [g]) t1 (by rw [hsplit]; simp) (by
        simpa [List.flatten_append, or_assoc] using h1)
      refine ⟨t2, by simp only [calcGroups, ht1]; exact ht2, ?_⟩
      simpa [List.append_assoc] using h2
  obtain ⟨t', ht', h'⟩ := loop (groupFeatures env.rels fs) [] t rfl (by simpa using h)
  refine ⟨t', ht', ?_⟩
  simpa [hmem] using h'

end
end FT
