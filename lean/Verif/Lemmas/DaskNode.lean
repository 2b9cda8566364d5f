import Verif.Lemmas.DaskGroups
import Verif.Lemmas.Run

/-! # The nodes of the plan on Dask frames -/
namespace FT
open Spec

theorem filter_eq_nodup {α : Type} [DecidableEq α] : ∀ (l : List α) (x : α), l.Nodup → (l.filter fun v => decide (v = x)) = if x ∈ l then [x] else []
  | [], x, _ => by simp
  | a :: l, x, h => by
    rw [List.nodup_cons] at h
    rw [List.filter_cons, filter_eq_nodup l x h.2]
    by_cases hx : a = x
    · subst hx
      simp [h.1]
    · simp [hx, Ne.symm hx]

/-- A merge with distinct values keeps the rows with one of the values. -/
theorem innerJoin_eq {var : String} {vals : List Val} (hn : vals.Nodup) (rows : List Row) :
    innerJoin var vals rows = rows.filter fun r => vals.contains (r var) := by
  unfold innerJoin
  induction rows with
  | nil => rfl
  | cons r rows ih =>
    rw [List.flatMap_cons, ih, filter_eq_nodup _ _ hn, List.filter_cons]
    by_cases h : r var ∈ vals
    · simp [h]
    · simp [h]

theorem daskSelect_ok {A : Arrange} (F : FairArrange A) (p : List Edge) (e : Ent) {vals vals' : List Val} (hm : ∀ x, x ∈ vals' ↔ x ∈ vals) {var : String}
    (hv : var ∈ e.df.cols) :
    ∃ rows, daskSelect A p e (valsToSeries (some vals')) var = .ok rows ∧ (e.df.rows.filter (wantedB (some vals) var)).Perm rows := by
  have hw : wantedB (some vals) var = fun r : Row => (dropna (dedup vals')).contains (r var) := by
    funext r
    rw [Bool.eq_iff_iff, List.contains_iff_mem, mem_dropna, mem_dedup, wantedB_iff, hm]
    simp [Wanted]
  simp only [daskSelect, valsToSeries, Option.map_some]
  rw [if_pos (List.contains_iff_mem.mpr hv), hw]
  refine ⟨_, rfl, ?_⟩
  split
  · exact List.Perm.refl _
  · rw [innerJoin_eq (show (dropna (dedup vals')).Nodup from (nodup_dedup vals').filter _)]
    exact (F.order _ _ _).symm

theorem daskQuery_ok {A : Arrange} (F : FairArrange A) (p : List Edge) (e : Ent) {vals vals' : List Val} (hm : ∀ x, x ∈ vals' ↔ x ∈ vals) {var : String}
    (hv : var ∈ e.df.cols) {cols : List String} {tl : Option Int} {incl : Bool} {t : Table}
    (h : queryByValues e (some vals) (some var) (some cols) tl none incl = .ok t) :
    ∃ t', daskQuery A p e (some vals') var cols tl incl = .ok t' ∧ TEq t t' := by
  obtain ⟨rows, hr, hp⟩ := daskSelect_ok F p e hm hv
  unfold queryByValues at h
  rw [if_pos (show (none : Option Window).all Window.hasNoObservations = true from rfl), Option.getD_some, selectRows_eq e _ _ (fun _ => hv)] at h
  simp only [bind, Except.bind, handleTime, handleTimeIndex_eq _ _ _ _ _ (show (none : Option Window).all Window.hasNoObservations = true from rfl), handleSecondary_eq, pure, Except.pure,
    selectColumns, Table.select] at h
  unfold daskQuery
  rw [hr]
  simp only [bind, Except.bind, handleTime, handleTimeIndex_eq _ _ _ _ _ (show (none : Option Window).all Window.hasNoObservations = true from rfl), handleSecondary_eq, pure, Except.pure,
    selectColumns, Table.select]
  split at h
  · cases h
    rename_i hc
    rw [if_pos hc]
    exact ⟨_, rfl, rfl, (hp.filter _).map _⟩
  · cases h

/-- The data of the parent are the same up to order. -/
def PEq : Option ParentData → Option ParentData → Prop
  | none, none => True
  | some a, some b => a.rel = b.rel ∧ a.anc = b.anc ∧ TEq a.df b.df
  | _, _ => False

theorem daskAncestors_ok {A : Arrange} (F : FairArrange A) (p : List Edge) {env : Env} {pd pd' : ParentData} {child child' t : Table} {new : List String}
    (hp : PEq (some pd) (some pd')) (hc : TEq child child') (hn : (pd.df.rows.map fun r => r pd.rel.parentV).Nodup)
    (h : addAncestors env pd child = .ok (t, new)) :
    ∃ t', daskAncestors A p env pd' child' = .ok (t', new) ∧ TEq t t' := by
  obtain ⟨h1, h2, h3⟩ := hp
  unfold addAncestors at h
  unfold daskAncestors
  rw [← h1, ← h2]
  cases hpn : pd.rel.parentName? env.rels with
  | none => rw [hpn] at h; cases h
  | some pn =>
    rw [hpn] at h
    dsimp only at h ⊢
    have hh : hasCols pd'.df (pd.rel.parentV :: pd.anc) = hasCols pd.df (pd.rel.parentV :: pd.anc) := by
      unfold hasCols; rw [h3.1]
    rw [hh, ← hc.1]
    split at h
    · rename_i hcc
      rw [if_pos hcc]
      split at h
      · cases h
      · rename_i hany
        rw [if_neg hany]
        cases h
        refine ⟨_, rfl, rfl, ?_⟩
        refine List.Perm.trans ?_ (F.order p 1 _).symm
        refine List.Perm.trans ?_ (leftJoin_perm hc.2 h3.2 hn)
        apply List.Perm.of_eq
        apply List.map_congr_left
        intro r _
        congr 1
        unfold ancestorCells cellOf
        cases pd.df.rows.find? fun p => decide (p pd.rel.parentV = r pd.rel.childV) <;> rfl
    · cases h

theorem daskPrep_ok {A : Arrange} (F : FairArrange A) (p : List Edge) {env : Env} {byName : String → Option Feat} {e : String} {v : NodeVal} {fv : String}
    {fvals fvals' : List Val} {pd pd' : Option ParentData} {t : Table} {new : List String} (hw : env.window = none) (hneed : v.need = false)
    (hm : ∀ x, x ∈ fvals' ↔ x ∈ fvals) (hp : PEq pd pd') (hfv : ∀ ent, env.ent e = some ent → fv ∈ ent.df.cols)
    (hn : ∀ d, pd = some d → (d.df.rows.map fun r => r d.rel.parentV).Nodup)
    (h : prepNode env byName e v fv fvals pd = .ok (t, new)) :
    ∃ t', daskPrep A p env byName e v fv fvals' pd' = .ok (t', new) ∧ TEq t t' := by
  unfold prepNode at h
  unfold daskPrep
  cases hge : env.getEnt e with
  | error x => rw [hge] at h; cases h
  | ok ent =>
    have hent : env.ent e = some ent := by
      unfold Env.getEnt at hge
      split at hge <;> cases hge
      assumption
    rw [hge] at h
    cases hff : findFeats byName (v.full ++ v.notFull) with
    | error x => rw [hff] at h; cases h
    | ok fs =>
      rw [hff] at h
      simp only [hneed, hw, Bool.false_eq_true, if_false] at h ⊢
      cases hq : queryByValues ent (some fvals) (some fv) (some (necessaryColumns env e fs)) (some env.timeLast) none env.includeCutoff with
      | error x => rw [hq] at h; cases h
      | ok df =>
        rw [hq] at h
        obtain ⟨df', hq', hte⟩ := daskQuery_ok F p ent hm (hfv ent hent) hq
        rw [hq']
        dsimp only at h ⊢
        cases pd with
        | none =>
          cases pd' with
          | some _ => exact hp.elim
          | none => cases h; exact ⟨_, rfl, hte⟩
        | some pd =>
          cases pd' with
          | none => exact hp.elim
          | some pd' =>
            dsimp only at h ⊢
            rw [← hp.2.1, ← hp.1]
            split at h
            · cases h
              rename_i ha
              rw [if_pos ha]
              exact ⟨_, rfl, hte⟩
            · rename_i ha
              rw [if_neg ha]
              cases hadd : addAncestors env pd df with
              | error x => rw [hadd] at h; cases h
              | ok r =>
                obtain ⟨t1, new1⟩ := r
                rw [hadd] at h
                cases h
                obtain ⟨t', h', hte'⟩ := daskAncestors_ok F p hp hte (hn pd rfl) hadd
                rw [h']
                exact ⟨_, rfl, hte'⟩

/-- The frames below a node are the same up to order. -/
def KEq (ks : List (Edge × DTrie × DTrie)) (ks' : List (Edge × DTrie)) : Prop :=
  ∀ edge, DEq ((Trie.child? edge (ks.map fun k => (k.1, k.2.1))).getD (Trie.new none)) ((Trie.child? edge ks').getD (Trie.new none))

theorem DEq.new : DEq (Trie.new none) (Trie.new none) := by
  intro q
  have : frameAt (Trie.new none) q = none := valueAt_new none q
  rw [this]
  trivial

theorem KEq.node {ks : List (Edge × DTrie × DTrie)} {ks' : List (Edge × DTrie)} (h : KEq ks ks') {x x' : Option Table} (hx : FEq x x') :
    DEq (.node x (ks.map fun k => (k.1, k.2.1))) (.node x' ks') := by
  intro q
  cases q with
  | nil => exact hx
  | cons e q => rw [frameAt_cons, frameAt_cons]; exact h e q

theorem planned_usesFull {targets : List Feat} {hidden : List Edge → List String} {p : List Edge} {f : Feat} {full : Bool}
    (h : Planned targets hidden p f full) (hno : ∀ f, NeededBy targets f → f.usesFull = false) : full = false := by
  induction h with
  | target hf hn => exact hno _ ⟨_, hf, .inl rfl⟩
  | dep hp hd hu hn ih =>
    rw [ih, Bool.false_or]
    exact hno _ (Planned.neededBy (.dep hp hd hu hn))

section
variable {env : Env} {targets : List Feat} {e0 : String} (R : RegularFor env targets Given.none e0)
include R

theorem noneNeed (hno : ∀ f, NeededBy targets f → f.usesFull = false) (p : List Edge) : (valAt targets Given.none p).need = false := by
  cases h : (valAt targets Given.none p).need with
  | false => rfl
  | true =>
    obtain ⟨p', g, hg, _⟩ := (plan_spec targets Given.none p).2.2.mp h
    have := planned_usesFull hg hno
    cases this

/-- The end of the work at a node. -/
theorem daskFinish_ok {A : Arrange} (F : FairArrange A) {p : List Edge} {v : NodeVal} {cs : List (Edge × FTrie)} {kids : List (Edge × DTrie × DTrie)}
    {kids' : List (Edge × DTrie)} {fv : String} {fvals fvals' : List Val}
    (hno : ∀ f, NeededBy targets f → f.usesFull = false) (hdask : ∀ f, NeededBy targets f → DaskFeature A f)
    (hn : hasNode p (rootTrie targets Given.none)) (ht : .node v cs = Trie.nodeAt NodeVal.empty p (rootTrie targets Given.none))
    {df0 df0' : Table} {B : List String} {I : List Val} (hB : BaseCols env targets Given.none e0 p B)
    (hI : I.Sublist ((worldOf env).ids (pathEnd e0 p)))
    (hdf0 : FrameOk (worldOf env) (meaningAt (worldOf env) Given.none p) (indexOf env (pathEnd e0 p)) (pathEnd e0 p) B (linksOf env targets Given.none p)
        (fun l id => l.2.2 = true ∨ id ∈ I) (fun _ => False) I df0)
    (hk : KidsOut env targets Given.none e0 p I cs kids) (hte : TEq df0 df0') (hke : KEq kids kids') :
    ∃ dT fT dT', finishNode env (byNameOf targets) (pathEnd e0 p) v fv fvals df0 none kids = .ok (dT, fT) ∧
      daskFinish A p env (byNameOf targets) v fv fvals' df0' kids' = .ok dT' ∧ DEq dT dT' := by
  have hv : valAt targets Given.none p = v := by
    have : (Trie.node v cs).value = (Trie.nodeAt NodeVal.empty p (rootTrie targets Given.none)).value := by rw [ht]
    exact this.symm
  have hvn : v.need = false := by rw [← hv]; exact noneNeed R hno p
  have hE := node_entity R hn
  obtain ⟨ent, hent, hidx⟩ := hE.get
  have hshort : ∀ l ∈ linksOf env targets Given.none p, ¬ 1 < l.2.1.length → l.1 ∈ env.keyCols (pathEnd e0 p) :=
    fun l hl => (link_chain _ p rfl (node_path R hn) l hl).2.2
  have hfr : FrameOk (worldOf env) (meaningAt (worldOf env) Given.none p) (indexOf env (pathEnd e0 p)) (pathEnd e0 p) B (linksOf env targets Given.none p)
      (fun _ _ => True) (fun _ => False) I df0 := hdf0.weaken (fun l _ x hx _ => .inr hx) fun _ => Iff.rfl
  obtain ⟨fs, hfs, hnd, hmem⟩ := notFull_feats R p
  rw [hv] at hfs
  have hsubI : ∀ x ∈ I, x ∈ (worldOf env).ids (pathEnd e0 p) := fun x hx => hI.subset hx
  have hbelow : ∀ f full, Planned targets Given.none.names p f full → f.path ≠ [] →
      SubFrameOk env (meaningAt (worldOf env) Given.none (p ++ f.path)) (pathEnd e0 p) I (.node none (kids.map fun k => (k.1, k.2.1))) f := by
    intro f full hf hp
    have hids : idsAt env (pathEnd e0 p) (.node (some df0) (kids.map fun k => (k.1, k.2.1))) [] = I := hfr.ids
    have ho := kids_out R (x := some df0) (y := none) hn ht hk hids hsubI
    have := sub_asked R (dT := .node (some df0) (kids.map fun k => (k.1, k.2.1))) hn ht ho.1 (by rw [hids]; exact hsubI) ho.2.2 f full hf hp
    rw [hids] at this
    have hna : ∀ x y : Option Table, (Trie.nodeAt none f.path (.node x (kids.map fun k => (k.1, k.2.1)))) =
        (Trie.nodeAt none f.path (.node y (kids.map fun k => (k.1, k.2.1)))) := by
      intro x y
      cases h : f.path with
      | nil => exact absurd h hp
      | cons a q => rfl
    simp only [SubFrameOk] at this ⊢
    rw [hna none (some df0)]
    exact this
  obtain ⟨out, out', h1, h2, h3⟩ := daskFeatures_ok F (2 + v.full.length) (dfs := .node none (kids.map fun k => (k.1, k.2.1))) (dfs' := .node none kids') (fs := fs)
      (D0 := fun _ => False) (C := {
        regular := R, baseCols := hB.only, keyCols := hB.key, entity := hE
        vars := fun f hf v hv => by
          obtain ⟨⟨full, hf⟩, _⟩ := (hmem f).mp hf
          exact hB.vars f full hf v hv
        short := hshort
        lok := fun _ _ _ _ _ => trivial
        sub := hI
        planned := fun f hf => ((hmem f).mp hf).1
        nodup := hnd
        done := fun _ h => h.elim
        notDone := fun f hf h => h
        closed := fun f hf hp d hd b hb => by
          obtain ⟨⟨full, hf⟩, _⟩ := (hmem f).mp hf
          have := planned_dep hf hd hb
          rw [hp, List.append_nil] at this
          rcases this with this | this
          · refine .inr ((hmem b).mpr ⟨⟨_, this⟩, fun h => ?_⟩)
            have := planned_usesFull h hno
            cases this
          · exact absurd this not_givenAt_none
        full := fun f hf hu => by
          obtain ⟨⟨full, hf⟩, _⟩ := (hmem f).mp hf
          rw [hno f hf.neededBy] at hu
          cases hu
        below := fun f hf hp => by
          obtain ⟨⟨full, hf⟩, _⟩ := (hmem f).mp hf
          exact hbelow f full hf hp }) hfr (fun f hf => by
            obtain ⟨⟨full, hf⟩, _⟩ := (hmem f).mp hf
            exact hdask f hf.neededBy) hte (hke.node (x := none) (x' := none) trivial)
  refine ⟨.node (some out) (kids.map fun k => (k.1, k.2.1)), .node none (kids.map fun k => (k.1, k.2.2)), .node (some out') kids', ?_, ?_, hke.node (x := some out) (x' := some out') h3⟩
  · rw [hidx] at h1
    simp only [finishNode, Env.getEnt, hent, mergePre, fullStep, hvn, Bool.false_eq_true, if_false, hfs, h1]
  · simp only [daskFinish, daskFull, hvn, Bool.false_eq_true, if_false, hfs, h2]

mutual
/-- Every node has the same frame on Dask, up to order. -/
theorem daskNode_ok {A : Arrange} (F : FairArrange A) (hw : env.window = none)
    (hno : ∀ f, NeededBy targets f → f.usesFull = false) (hdask : ∀ f, NeededBy targets f → DaskFeature A f) (ids : List Val) :
    ∀ (t : FTrie) (p : List Edge) (fv : String) (fvals fvals' : List Val) (pd pd' : Option ParentData),
    t = Trie.nodeAt NodeVal.empty p (rootTrie targets Given.none) → Trie.WF t → NodeIn env targets Given.none e0 ids p fv fvals pd →
    (∀ x, x ∈ fvals' ↔ x ∈ fvals) → PEq pd pd' →
    ∃ dT fT dT', calcNode env (byNameOf targets) t (Trie.new none) (pathEnd e0 p) fv fvals pd = .ok (dT, fT) ∧
      NodeOut env targets Given.none e0 p t fv fvals dT fT ∧
      daskNode A env (byNameOf targets) t p (pathEnd e0 p) fv fvals' pd' = .ok dT' ∧ DEq dT dT'
  | .node v cs, p, fv, fvals, fvals', pd, pd', ht, hwf, hin, hm, hpe => by
    have hn := hin.node
    have hv : valAt targets Given.none p = v := by
      have : (Trie.node v cs).value = (Trie.nodeAt NodeVal.empty p (rootTrie targets Given.none)).value := by rw [ht]
      exact this.symm
    have hvn : v.need = false := by rw [← hv]; exact noneNeed R hno p
    obtain ⟨df, B, I, I', hprep, hB, hI, hneed, hnot, hask, hdf⟩ := prepNode_ok R hin
    rw [hv] at hprep hneed hnot
    obtain rfl := hnot hvn
    have hE := node_entity R hn
    obtain ⟨df', hprep', hte⟩ := daskPrep_ok F p hw hvn hm hpe (fun ent hent => hE.keys ent hent fv hin.key) (by
      rintro d rfl
      obtain ⟨p', rfl, _, _, _, Bp, Ip, hP, hPi, hPs, _⟩ := hin.links
      have hr := node_path R hin.node p' false d.rel [] (by simp)
      simp only [Bool.false_eq_true, if_false] at hr
      rw [hr.1.parentIndex]
      have := hP.ids
      rw [this]
      exact hPs.nodup (visible_ids hr.1.parent R.window).1) hprep
    have hfi : FrameOk (worldOf env) (meaningAt (worldOf env) Given.none p) (indexOf env (pathEnd e0 p)) (pathEnd e0 p) B (linksOf env targets Given.none p)
          (fun _ _ => True) (fun _ => False) I' df := hdf.weaken (fun l _ x hx _ => .inr hx) fun _ => Iff.rfl
    have hwf' : (cs.map Prod.fst).Nodup ∧ Trie.WFs cs := by simpa only [Trie.WF] using hwf
    have hcs : ∀ k ∈ cs, k.2 = Trie.nodeAt NodeVal.empty (p ++ [k.1]) (rootTrie targets Given.none) ∧ hasNode (p ++ [k.1]) (rootTrie targets Given.none) ∧ Trie.WF k.2 := by
      intro k hk
      have hch := Trie.child?_of_mem hwf'.1 (show (k.1, k.2) ∈ cs from hk)
      refine ⟨?_, ?_, (Trie.WFs_iff cs).mp hwf'.2 k hk⟩
      · rw [nodeAt_append, ← ht]
        simp only [Trie.nodeAt, hch, Option.getD_some]
      · refine (hasNode_append hn).mpr ?_
        rw [← ht, hasNode_cons]
        exact ⟨_, hch, trivial⟩
    obtain ⟨kids, kids', hkids, hko, hkids', hke⟩ := daskKids_ok F hw hno hdask ids cs p df df' B I' hn hB hI (fun h => by rw [noneNeed R hno] at h; cases h) hdf hfi hcs (by
      intro hf x hx
      obtain ⟨h1, h2⟩ := hin.reach hf
      have hxv := hask.1.subset hx
      have h3 := hask.2.2 x hx
      rw [h1, cell_index hE R.window hxv] at h3
      rcases h3 with h3 | h3
      · exact h2 x h3
      · subst h3; exact absurd hxv (visible_ids hE R.window).2) hte
    obtain ⟨dT, fT, hfin, hout⟩ := finish_ok R (pre := none) (by have h0 := preAt_none env targets e0 ids p; rwa [show (Trie.nodeAt none p (Trie.new none : PTrie)).value = none from valueAt_new none p] at h0) hin.reach hn ht hin.key hB hI hneed hnot hask hdf hko
    obtain ⟨dT2, fT2, dT', hfin2, hfin', hde⟩ := daskFinish_ok R F (fv := fv) (fvals := fvals) (fvals' := fvals') hno hdask hn ht hB hI hdf hko hte hke
    rw [hfin] at hfin2
    cases hfin2
    refine ⟨dT, fT, dT', ?_, hout, ?_, hde⟩
    · simp only [calcNode, hprep, filteredDf, hvn, Bool.false_eq_true, if_false, hkids]
      exact hfin
    · simp only [daskNode, hprep', daskFiltered, hvn, Bool.false_eq_true, if_false, hkids']
      exact hfin'

theorem daskKids_ok {A : Arrange} (F : FairArrange A) (hw : env.window = none)
    (hno : ∀ f, NeededBy targets f → f.usesFull = false) (hdask : ∀ f, NeededBy targets f → DaskFeature A f) (ids : List Val) :
    ∀ (cs : List (Edge × FTrie)) (p : List Edge) (df df' : Table) (B : List String) (I : List Val),
    hasNode p (rootTrie targets Given.none) → BaseCols env targets Given.none e0 p B →
    I.Sublist ((worldOf env).ids (pathEnd e0 p)) →
    ((valAt targets Given.none p).need = true → I = (worldOf env).ids (pathEnd e0 p)) →
    FrameOk (worldOf env) (meaningAt (worldOf env) Given.none p) (indexOf env (pathEnd e0 p)) (pathEnd e0 p) B (linksOf env targets Given.none p)
        (fun l id => l.2.2 = true ∨ id ∈ I) (fun _ => False) I df →
    FrameOk (worldOf env) (meaningAt (worldOf env) Given.none p) (indexOf env (pathEnd e0 p)) (pathEnd e0 p) B (linksOf env targets Given.none p)
        (fun _ _ => True) (fun _ => False) I df →
    (∀ k ∈ cs, k.2 = Trie.nodeAt NodeVal.empty (p ++ [k.1]) (rootTrie targets Given.none) ∧ hasNode (p ++ [k.1]) (rootTrie targets Given.none) ∧ Trie.WF k.2) →
    ((∀ x ∈ p, x.1 = true) → ∀ x ∈ I, ReachedUp (worldOf env) ids p x) → TEq df df' →
    ∃ kids kids', calcKids env (byNameOf targets) cs (Trie.new none) df df ((linksOf env targets Given.none p).map Prod.fst) = .ok kids ∧
      KidsOut env targets Given.none e0 p I cs kids ∧
      daskKids A env (byNameOf targets) cs p df' df' ((linksOf env targets Given.none p).map Prod.fst) = .ok kids' ∧ KEq kids kids'
  | [], p, df, df', B, I, _, _, _, _, _, _, _, _, _ => ⟨[], [], rfl, by intro e s h; simp [Trie.child?] at h, rfl, by intro e; exact DEq.new⟩
  | (edge, sub) :: rest, p, df, df', B, I, hn, hB, hI, hneed, hdf, hfi, hcs, hreach, hte => by
    obtain ⟨hs, hsn, hsw⟩ := hcs _ List.mem_cons_self
    obtain ⟨pd, harg, hin⟩ := subArgs_ok R hn hsn hB hI (fun _ h => h) hneed hdf hfi hreach
    have harg' : ∃ vals' pd', subArgs edge df' df' ((linksOf env targets Given.none p).map Prod.fst) = .ok (pathEnd e0 (p ++ [edge]), subFv edge, vals', pd') ∧
        (∀ x, x ∈ vals' ↔ x ∈ subVals env I edge) ∧ PEq pd pd' := by
      obtain ⟨b, r⟩ := edge
      cases b with
      | true =>
        simp only [subArgs] at harg ⊢
        rw [← hte.1]
        split at harg
        · rename_i hc
          rw [if_pos hc]
          simp only [Except.ok.injEq, Prod.mk.injEq] at harg
          obtain ⟨h1, h2, h3, rfl⟩ := harg
          refine ⟨df'.rows.map fun x => x r.childV, none, by rw [h1, h2], ?_, trivial⟩
          intro x
          rw [← h3]
          exact (hte.2.map _).symm.mem_iff
        · cases harg
      | false =>
        simp only [subArgs] at harg ⊢
        rw [← hte.1]
        split at harg
        · rename_i hc
          rw [if_pos hc]
          simp only [Except.ok.injEq, Prod.mk.injEq] at harg
          obtain ⟨h1, h2, h3, rfl⟩ := harg
          refine ⟨df'.rows.map fun x => x r.parentV, some ⟨r, _, df'⟩, by rw [h1, h2], ?_, rfl, rfl, hte⟩
          intro x
          rw [← h3]
          exact (hte.2.map _).symm.mem_iff
        · cases harg
    obtain ⟨vals', pd', harg', hvm, hpe⟩ := harg'
    obtain ⟨dT, fT, dT', hc, ho, hc', hde⟩ := daskNode_ok F hw hno hdask ids sub (p ++ [edge]) (subFv edge) (subVals env I edge) vals' pd pd' hs hsw hin hvm hpe
    obtain ⟨kids, kids', hk, hko, hk', hke⟩ := daskKids_ok F hw hno hdask ids rest p df df' B I hn hB hI hneed hdf hfi (fun k hk => hcs k (List.mem_cons_of_mem _ hk)) hreach hte
    refine ⟨(edge, dT, fT) :: kids, (edge, dT') :: kids', ?_, ?_, ?_, ?_⟩
    · simp only [calcKids, harg]
      rw [show Trie.nodeAt none [edge] (Trie.new none : PTrie) = Trie.new none from rfl, hc, hk]
    · intro edge' sub' hch
      simp only [Trie.child?] at hch
      by_cases he : edge = edge'
      · subst he
        simp at hch
        subst hch
        exact ⟨dT, fT, by simp [Trie.child?], by simp [Trie.child?], ho⟩
      · have hch' : Trie.child? edge' rest = some sub' := by
          simpa [he] using hch
        obtain ⟨dT', fT', h1, h2, h3⟩ := hko edge' sub' hch'
        refine ⟨dT', fT', ?_, ?_, h3⟩
        · simp only [List.map_cons, Trie.child?]; simpa [he] using h1
        · simp only [List.map_cons, Trie.child?]; simpa [he] using h2
    · simp only [daskKids, harg']
      rw [hc', hk']
    · intro edge'
      by_cases he : edge = edge'
      · subst he
        simpa [Trie.child?] using hde
      · have := hke edge'
        simpa [Trie.child?, he] using this
end
end
end FT
