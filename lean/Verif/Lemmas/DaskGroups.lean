import Verif.Lemmas.DaskStep

/-! # The feature groups of a node on Dask frames -/
namespace FT
open Spec

section
variable {env : Env} {targets : List Feat} {G : Given} {e0 : String} {p : List Edge} {B : List String}
  {lok : Link → Val → Prop} {I : List Val} {dfs : DTrie} {fs : List Feat} {D0 : Feat → Prop}

/-- One group of features, on a Dask frame with the rows of the pandas frame. -/
theorem daskGroup_ok {A : Arrange} (F : FairArrange A) (k : Nat) (C : NodeCtx env targets G e0 p B lok I dfs fs D0) {D : Feat → Prop}
    {t t' out : Table} {dfs' : DTrie}
    (h : FrameOk (worldOf env) (meaningAt (worldOf env) G p) (indexOf env (pathEnd e0 p)) (pathEnd e0 p) B (linksOf env targets G p) lok D I t)
    (g : List Feat) (hne : g ≠ []) (hsub : ∀ f ∈ g, f ∈ fs)
    (hdeps : ∀ f ∈ g, f.path = [] → ∀ d, d ∈ f.bases ∨ d ∈ f.wh → ∀ b, unslice d = some b → D b)
    (halike : ∀ a ∈ g, ∀ b ∈ g, className a = className b ∧ a.pathName env.rels = b.pathName env.rels ∧
      getWhere a = getWhere b ∧ getGroupby a = getGroupby b ∧ a.usesFull = b.usesFull ∧ getUsePrevious a = getUsePrevious b)
    (hdask : ∀ f ∈ fs, DaskFeature A f) (ht : TEq t t') (hd : DEq dfs dfs')
    (hcalc : calcGroup env (indexOf env (pathEnd e0 p)) g t dfs = .ok out) :
    ∃ out', daskGroup A p k env g t' dfs' = .ok out' ∧ TEq out out' := by
  have R := C.regular
  have hidx : indexOf env (pathEnd e0 p) ∈ B := C.keyCols _ C.entity.indexKey
  obtain ⟨f0, rest, hg⟩ : ∃ f l, g = f :: l := by
    cases g with
    | nil => exact absurd rfl hne
    | cons a l => exact ⟨a, l, rfl⟩
  have hf0 : f0 ∈ g := by simp [hg]
  have hpl : ∀ f ∈ g, ∃ full, Planned targets G.names p f full := fun f hf => C.planned f (hsub f hf)
  have hwf : ∀ f ∈ g, WellFormed env f := fun f hf => by
    obtain ⟨_, hp⟩ := hpl f hf
    exact R.wf f hp.neededBy
  have hent : ∀ f ∈ g, f.entity = pathEnd e0 p := fun f hf => by
    obtain ⟨_, hp⟩ := hpl f hf
    exact planned_entity R hp
  have hdwf : ∀ f ∈ g, ∀ d, d ∈ f.bases ∨ d ∈ f.wh → WellFormed env d := fun f hf d hd => by
    obtain ⟨_, hp⟩ := hpl f hf
    exact R.wf d (neededBy_dep hp.neededBy hd)
  have hkind : ∀ f ∈ g, _ := fun f hf => className_kind f0 f (halike f0 hf0 f hf).1
  cases hk : f0.kind with
  | identity v =>
    subst hg
    simp only [calcGroup, hk] at hcalc
    simp only [daskGroup, hk]
    unfold calcIdentity at hcalc ⊢
    rw [← ht.1]
    split at hcalc
    · cases hcalc
      rename_i hc
      rw [if_pos hc]
      exact ⟨_, rfl, ht⟩
    · cases hcalc
  | slice n => subst hg; simp only [calcGroup, hk] at hcalc; cases hcalc
  | groupby prim =>
    have := hdask f0 (hsub f0 hf0)
    simp only [DaskFeature, hk] at this
  | trans prim =>
    have hall : ∀ f ∈ g, ∃ v, f.kind = .trans v := by
      intro f hf
      have := hkind f hf
      rw [hk] at this
      cases hkf : f.kind <;> simp_all
    have hrow : ∀ f ∈ g, ∃ gp : (Int → List Val → List Val) × TransPrim, RowTrans f gp.1 gp.2 := by
      intro f hf
      obtain ⟨v, hv⟩ := hall f hf
      have hw := (hwf f hf).2.2.2
      simp only [hv] at hw
      have hdk := hdask f (hsub f hf)
      simp only [DaskFeature, hv] at hdk
      obtain ⟨gg, hgg⟩ := hw.2.2.2.2 hdk
      exact ⟨(gg, v), by simp [transPrim?, hv], hw.1, hgg⟩
    have hcols : ∀ f ∈ g, hasCols t (f.bases.map Feat.name) = true := by
      intro f hf
      obtain ⟨v, hv⟩ := hall f hf
      have hw := (hwf f hf).2.2.2
      simp only [hv] at hw
      rw [hasCols_iff]
      intro c hc
      obtain ⟨d, hd, rfl⟩ := List.mem_map.mp hc
      have hwd := hdwf f hf d (.inl hd)
      obtain ⟨b, hb⟩ := unslice_some hwd
      have := h.done b (hdeps f hf (path_trans hv) d (.inl hd) b hb)
      exact (dep_column hwd (hw.2.2.1 d hd).2.1 hb this.1 this.2).1
    have h1 : calcGroup env (indexOf env (pathEnd e0 p)) g t dfs = calcTrans env g t := by
      subst hg; simp only [calcGroup, hk]
    have h2 : daskGroup A p k env g t' dfs' = daskTrans env g t' := by
      subst hg; simp only [daskGroup, hk]
    rw [h1] at hcalc
    rw [h2]
    classical
    let gf : Feat → (Int → List Val → List Val) × TransPrim := fun f => if hf : f ∈ g then (hrow f hf).choose else (fun _ _ => [], prim)
    have hgf : ∀ f (hf : f ∈ g), gf f = (hrow f hf).choose := fun f hf => dif_pos hf
    refine daskTrans_ok (fun f => (gf f).1) (fun f => (gf f).2) ht hcalc ?_ hcols
    intro f hf
    simp only [hgf f hf]
    exact (hrow f hf).choose_spec
  | direct rel =>
    have h1 : calcGroup env (indexOf env (pathEnd e0 p)) g t dfs = calcDirect g t dfs := by
      subst hg; simp only [calcGroup, hk]
    have h2 : daskGroup A p k env g t' dfs' = daskDirect A p k g t' dfs' := by
      subst hg; simp only [daskGroup, hk]
    rw [h1] at hcalc
    rw [h2]
    have hpe : ∀ f ∈ g, f.path = [(true, rel)] := by
      intro f hf
      obtain ⟨_, hp⟩ := hpl f hf
      obtain ⟨_, hp0⟩ := hpl f0 hf0
      rw [R.paths p f f0 _ _ hp hp0 (halike f hf f0 hf0).1 (halike f hf f0 hf0).2.1, path_direct hk]
    have hall : ∀ f ∈ g, f.kind = .direct rel := by
      intro f hf
      have := hkind f hf
      rw [hk] at this
      have h2 := hpe f hf
      cases hkf : f.kind with
      | direct r => rw [path_direct hkf] at h2; cases h2; rfl
      | _ => simp [hkf] at this
    have hw0 := (hwf f0 hf0).2.2.2
    simp only [hk] at hw0
    obtain ⟨hrel, hce, _⟩ := hw0
    have hend : pathEnd (pathEnd e0 p) [(true, rel)] = rel.parentE := rfl
    obtain ⟨base, hval, hsl, hic, _, _, _, _⟩ := C.below f0 (hsub f0 hf0) (by rw [path_direct hk]; simp)
    rw [path_direct hk] at hval
    simp only [path_direct hk, hend] at hsl hic
    refine daskDirect_ok F p k ht hd hcalc ?_
    intro fwd rel' hpath parent hparent
    have : g.head?.map Feat.path = some [(true, rel)] := by subst hg; simp [path_direct hk]
    rw [this] at hpath
    cases hpath
    unfold frameAt at hparent
    rw [hval] at hparent
    cases hparent
    refine ⟨?_, ?_⟩
    · rw [hrel.parentIndex]
      exact hsl.nodup (visible_ids hrel.parent R.window).1
    · intro f hf b hb
      have hdk := hdask f (hsub f hf)
      simp only [DaskFeature, hall f hf] at hdk
      exact hdk b hb
  | agg path prim prev u =>
    have h1 : calcGroup env (indexOf env (pathEnd e0 p)) g t dfs = calcAgg env (indexOf env (pathEnd e0 p)) g t dfs := by
      subst hg; simp only [calcGroup, hk]
    have h2 : daskGroup A p k env g t' dfs' = daskAgg A p k env g t' dfs' := by
      subst hg; simp only [daskGroup, hk]
    rw [h1, hg] at hcalc
    rw [h2, hg]
    have hpe : ∀ f ∈ g, f.path = path.map fun r => (false, r) := by
      intro f hf
      obtain ⟨_, hp⟩ := hpl f hf
      obtain ⟨_, hp0⟩ := hpl f0 hf0
      rw [R.paths p f f0 _ _ hp hp0 (halike f hf f0 hf0).1 (halike f hf f0 hf0).2.1, path_agg hk]
    have hw0 := (hwf f0 hf0).2.2.2
    simp only [hk] at hw0
    obtain ⟨hrels, _, _, _, ⟨ce, hpd, _⟩, _, _⟩ := hw0
    have hend : pathEnd (pathEnd e0 p) (path.map fun r => (false, r)) = ce := hpd.pathEnd _
    have hpne : (path.map fun r => ((false, r) : Edge)) ≠ [] := by simpa using hpd.ne_nil
    obtain ⟨base, hval, _, _, _, _, _, hagg⟩ := C.below f0 (hsub f0 hf0) (by rw [path_agg hk]; exact hpne)
    have hgc := (hagg path prim prev u hk).1
    have hdc : ∀ f ∈ g, ∀ d, d ∈ f.bases ∨ d ∈ f.wh → d.name ∈ base.cols := by
      intro f hf d hd
      have hkf : ∃ path' pr prev' u', f.kind = .agg path' pr prev' u' := by
        have := hkind f hf
        rw [hk] at this
        cases hkf : f.kind <;> simp_all
      obtain ⟨path', pr, prev', u', hkf⟩ := hkf
      have hw := (hwf f hf).2.2.2
      simp only [hkf] at hw
      obtain ⟨_, _, _, _, ⟨ce', _, hde'⟩, _⟩ := hw
      have hwd := hdwf f hf d hd
      obtain ⟨b, hb⟩ := unslice_some hwd
      obtain ⟨base', hval', _, _, hbd', _⟩ := C.below f (hsub f hf) (by rw [hpe f hf]; exact hpne)
      rw [hpe f hf, ← path_agg hk, hval] at hval'
      cases hval'
      obtain ⟨h1, h2⟩ := hbd' d hd b hb
      exact (dep_column hwd (hde' d hd).2 hb h1 h2).1
    refine daskAgg_ok F p k ht hd hcalc ?_ ?_ ?_ ((h.base _ hidx).1)
    · intro f hf
      rw [← hg] at hf
      refine ⟨hdask f (hsub f hf), ?_⟩
      have := hkind f hf
      rw [hk] at this
      cases hkf : f.kind with
      | agg a b c d => exact ⟨a, b, c, d, rfl⟩
      | _ => simp [hkf] at this
    · intro base' hbase'
      unfold frameAt at hbase'
      rw [hval] at hbase'
      cases hbase'
      refine ⟨by simpa only [aggPath, hk] using hgc, fun w hw => hdc f0 hf0 w (.inr hw), ?_⟩
      intro f hf b hb
      rw [← hg] at hf
      exact hdc f hf b (.inl hb)
    · rw [path_agg hk]
      have he := hent f0 hf0
      generalize hfe : f0.entity = fe at hpd
      rw [hfe] at he
      cases hpd with
      | last r =>
        refine ⟨false, r, rfl, ?_⟩
        rw [(hrels r (by simp)).parentIndex, he]
      | step r h' =>
        refine ⟨false, r, rfl, ?_⟩
        rw [(hrels r (by simp)).parentIndex, he]

/-- All groups. -/
theorem daskFeatures_ok {A : Arrange} (F : FairArrange A) (k : Nat) (C : NodeCtx env targets G e0 p B lok I dfs fs D0) {t t' : Table} {dfs' : DTrie}
    (h : FrameOk (worldOf env) (meaningAt (worldOf env) G p) (indexOf env (pathEnd e0 p)) (pathEnd e0 p) B (linksOf env targets G p) lok D0 I t)
    (hdask : ∀ f ∈ fs, DaskFeature A f) (ht : TEq t t') (hd : DEq dfs dfs') :
    ∃ out out', calcFeatures env (indexOf env (pathEnd e0 p)) fs t dfs = .ok out ∧
      daskGroups A p env dfs' k (groupFeatures env.rels fs) t' = .ok out' ∧ TEq out out' := by
  have loop : ∀ (gs pre : List (List Feat)) (k : Nat) (t t' : Table), groupFeatures env.rels fs = pre ++ gs → TEq t t' →
      FrameOk (worldOf env) (meaningAt (worldOf env) G p) (indexOf env (pathEnd e0 p)) (pathEnd e0 p) B (linksOf env targets G p) lok
        (fun f => D0 f ∨ f ∈ pre.flatten) I t →
      ∃ out out', calcGroups env (indexOf env (pathEnd e0 p)) dfs gs t = .ok out ∧ daskGroups A p env dfs' k gs t' = .ok out' ∧ TEq out out' := by
    intro gs
    induction gs with
    | nil => intro pre k t t' _ ht _; exact ⟨t, t', rfl, rfl, ht⟩
    | cons g gs ih =>
      intro pre k t t' hsplit ht h
      obtain ⟨f1, f2, f3, f4, f5, f6, f7⟩ := groups_facts C hsplit
      obtain ⟨t1, ht1, h1⟩ := calcGroup_ok C h f1 g f2 f3 f4 f5 f6 f7
      obtain ⟨t1', ht1', hte⟩ := daskGroup_ok F k C h g f2 f3 f6 f7 hdask ht hd ht1
      obtain ⟨out, out', h2, h3, h4⟩ := ih (pre ++ [g]) (k + 1) t1 t1' (by rw [hsplit]; simp) hte (by
        simpa [List.flatten_append, or_assoc] using h1)
      exact ⟨out, out', by simp only [calcGroups, ht1]; exact h2, by simp only [daskGroups, ht1']; exact h3, h4⟩
  exact loop _ [] k t t' rfl ht (by simpa using h)

end
end FT
