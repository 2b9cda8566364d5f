import Verif.Lemmas.DfsComplete4
namespace FT
open FT.Spec

theorem Spec.Fits.mem_types {sub : String → String → Bool} : ∀ {tys : List String} {t : List DFeat}, Fits sub tys t → ∀ f ∈ t, ∃ ty ∈ tys, sub f.vtype ty = true
  | [], [], _, f, hf => by cases hf
  | [], _ :: _, h, _, _ => h.elim
  | _ :: _, [], _, _, hf => by cases hf
  | ty :: tys, g :: t, h, f, hf => by
    rcases List.mem_cons.mp hf with rfl | hf
    · exact ⟨ty, List.mem_cons_self, h.1⟩
    · obtain ⟨ty', h1, h2⟩ := h.2.mem_types f hf
      exact ⟨ty', List.mem_cons_of_mem _ h1, h2⟩

theorem lookup_nodup {β : Type} {l : List (String × β)} (hn : (l.map Prod.fst).Nodup) {k : String} {v : β} (hp : (k, v) ∈ l) : l.lookup k = some v := by
  induction l with
  | nil => cases hp
  | cons x l ih =>
    obtain ⟨k', v'⟩ := x
    simp only [List.map_cons, List.nodup_cons] at hn
    rw [List.lookup_cons]
    rcases List.mem_cons.mp hp with h | h
    · cases h; simp
    · have : k ≠ k' := fun e => hn.1 (e ▸ List.mem_map.mpr ⟨_, h, rfl⟩)
      have : (k == k') = false := by simpa using this
      rw [this]
      exact ih hn.2 h

section
variable {L : Lang} {equalScalar : Val → Prim} {ents : List DEnt} {rels : List Relationship} {a : DfsArgs} {r : List DFeat}
variable {S : Synth} {st : DState} {d : DEnt} {s1 s2 s3 s4 s5 s6 s7 : DState} {fs : List DFeat}

theorem Ran.lists_of_mem (R : Ran L equalScalar ents rels a r S st d s1 s2 s3 s4 s5 s6 s7 fs) {c : String} {cs : List DFeat} (h : (c, cs) ∈ st.feats) :
    Lists st c cs := lookup_nodup R.ok.keys h

theorem Ran.done (R : Ran L equalScalar ents rels a r S st d s1 s2 s3 s4 s5 s6 s7 fs) {c : String} (h : c ∈ st.keys) : Done S st c :=
  (R.course.visited (by simp [DState.keys])).1.done c h (by simp [DState.keys])

theorem Ran.proper (R : Ran L equalScalar ents rels a r S st d s1 s2 s3 s4 s5 s6 s7 fs) (hs : ∀ f ∈ a.seeds, Proper f) {c : String} {cs : List DFeat}
    (h : Lists st c cs) : ∀ f ∈ cs, Proper f :=
  fun f hf => built_proper (fun g hg => hs g ((R.conf.seeds g).mp hg)) ((R.ok.feats _ (lookup_mem_pair h)).2.2 f hf).1

theorem offered_outputs {P : DFeat → Prop} {f : DFeat} (h : Offered L P f) : f.outputs = 1 := by
  rcases h with h | ⟨g, i, _, ⟨_, _, rfl, _⟩, _⟩
  · exact h.2.1
  · rfl

theorem offered_proper {P : DFeat → Prop} (hp : ∀ f, P f → Proper f) {f : DFeat} (h : Offered L P f) : Proper f := by
  rcases h with h | ⟨g, i, hg, ⟨_, _, rfl, _⟩, _⟩
  · exact hp f h.1
  · exact .slice i _ _ (hp g hg)

theorem offered_mem {target : String} {M : Option Int} {s : DState} (hok : StateOk S target M s) {e : String} {l : List DFeat} (hl : Lists s e l)
    {m : Option Int} {types : Option (List String)} {x : DFeat} (hx : Offered S.L (· ∈ l) x)
    (hd : withinDepth m (x.depth (S.seeds.map DFeat.uname)) = true) (ht : ∀ ts, types = some ts → ∃ ty ∈ ts, S.L.sub x.vtype ty = true) :
    x ∈ featuresByType S s e m types := by
  rcases hx with ⟨h1, h2⟩ | ⟨g, i, hg, ⟨h1, h2, rfl, h3⟩, h4⟩
  · exact featuresByType_mem hok hl h1 (by rw [h2.1]; exact Nat.le_refl _) h2.2 hd ht
  · exact featuresByType_slice hok hl hg h1 h2 h3 h4 hd ht

/-- The inputs of an aggregation. -/
theorem Ran.aggregation (R : Ran L equalScalar ents rels a r S st d s1 s2 s3 s4 s5 s6 s7 fs) (hL : ∀ l, (L.setOrder l).Perm l)
    (hs : ∀ f ∈ a.seeds, Proper f) {c : String} {cs : List DFeat} (hlook : Lists st c cs)
    {chain : List Relationship} (hch : Chain rels c a.target chain) (hne : chain ≠ []) (hsure : SureBelow a c chain)
    {p : Prim} (hp : p ∈ a.aggs) {t : List DFeat} (ht : t ≠ []) (hfit : Fits L.sub p.inputs t) (hdis : Distinct t)
    (hin : ∀ f ∈ t, Offered L (· ∈ cs) f ∧ NothingIgnored a p f ∧ ¬LinkColumn chain f ∧ (∀ q, f.kind = .direct q → q.parentE ≠ a.target) ∧
      (∀ n, DepChain (a.seeds.map DFeat.uname) f n → WithinLimit ents a.maxDepth (n + 1)) ∧ ∀ q, Behind q f → MayStack p q) :
    ∃ u, u.Perm t ∧ (p.commutative = false → u = t) ∧ Present s3 a.target (a.target ++ ": " ++ L.namer.agg p (bwd chain.reverse) (u.map DFeat.name) none) ∧
      ((whereCount u : Int) < a.whereLimit → (∃ q ∈ a.wheres, q.cls ∈ p.supers) → ∀ w ∈ newClauses S cs, (∀ b ∈ w.bases, b.uname ∉ u.map DFeat.uname) →
        Present s3 a.target (a.target ++ ": " ++ L.namer.agg p (bwd chain.reverse) (u.map DFeat.name) (some w.name))) := by
  have hck : c ∈ st.keys := mem_keys.mpr ⟨_, hlook⟩
  have hdone := R.done hck
  obtain ⟨dc, hdc⟩ := hdone.known
  rw [R.conf.ents] at hdc
  obtain ⟨hc2, hce, hci, hav⟩ := R.below hch hne hsure ⟨dc, hdc⟩
  have hl2 : Lists s2 c cs := ((R.course.kept2 c hc2 hce).1).symm.trans hlook
  obtain ⟨l, hl, h3⟩ := aggAll_adds R.stages.aggs
  have hx : (c, bwd chain.reverse) ∈ l := (mem_deepBackward _ _ l hl c _).mpr ⟨chain, rfl, hne, by rw [R.conf.rels]; exact hch⟩
  have hno : NoOptions a.options p := by
    match t, ht, hin with
    | f :: _, _, hin => exact (hin f List.mem_cons_self).2.1.1
  have hLS : ∀ l, (S.L.setOrder l).Perm l := by rw [R.conf.lang]; exact hL
  have hprop := R.proper hs hlook
  obtain ⟨u, hu, hperm, hcomm⟩ := aggInputs_complete hLS R.ok2 (e := a.target) (c := c) (path := bwd chain.reverse) (m := lower1 (effectiveDepth S a.maxDepth))
    (opts_single R.conf hno) ht (by rw [R.conf.lang]; exact hfit) (fun f hf => by
      obtain ⟨h1, h3, h4, h5, h6, h7⟩ := hin f hf
      refine ⟨offered_mem R.ok2 hl2 (by rw [R.conf.lang]; exact h1) ?_ ?_, ?_, nothingIgnored_filter h3 _⟩
      · rw [withinDepth_lower, withinDepth_limit]
        exact depth_limit R.conf (offered_proper hprop h1) h6
      · intro ts hts
        cases hts
        rw [R.conf.lang]
        exact hfit.mem_types f hf
      · unfold aggKeep
        rw [Bool.and_eq_true]
        constructor
        · split
          · next q hq => simpa using h5 q hq
          · rfl
        · rw [Bool.not_eq_true', ← Bool.not_eq_true, inRelPath_iff]
          intro hlc
          refine h4 ?_
          obtain ⟨q, hq, rest⟩ := hlc
          refine ⟨q, ?_, rest⟩
          simpa [bwd] using hq) hdis
  refine ⟨u, hperm, hcomm, ?_⟩
  obtain ⟨hnoerr, hadd⟩ := (h3 (not_cycle hl)).2 _ hx hav p ((R.conf.aggs p).mpr hp) (not_skipped R.conf hno hci false) u hu
  have hup : ∀ b ∈ u, Proper b := fun b hb => offered_proper hprop (hin b (hperm.mem_iff.mp hb)).1
  have hstack : stackOk p u = .ok true := by
    refine (C44_check_stacking_partial p u hup).1.mpr fun b hb => ?_
    obtain ⟨h2, _, _, _, _, h7⟩ := hin b (hperm.mem_iff.mp hb)
    refine ⟨by rw [offered_outputs h2]; exact Nat.le_refl _, fun q hq => ⟨h7 q hq, Classical.byContradiction fun hx => ?_⟩⟩
    refine hnoerr _ ((C44_check_stacking_partial p u hup).2.mpr ⟨⟨b, hb, q, hq, hx⟩, fun b' hb' => ?_⟩)
    obtain ⟨h2', _, _, _, _, h7'⟩ := hin b' (hperm.mem_iff.mp hb')
    exact ⟨by rw [offered_outputs h2']; exact Nat.le_refl _, fun q' hq' => ⟨(h7' q' hq').self, (h7' q' hq').exclude⟩⟩
  obtain ⟨g1, g2⟩ := hadd hstack
  rw [R.conf.lang] at g1 g2
  refine ⟨g1, fun w1 w2 w hw hb => g2 (by rw [R.conf.limit]; exact w1) ?_ w ?_ hb⟩
  · obtain ⟨q, hq, hqs⟩ := w2
    exact ⟨q, (R.conf.wheres q).mpr hq, hqs⟩
  · refine (hL _).mem_iff.mpr ?_
    rw [← (R.course.kept2 c hc2 hce).2, hdone.clauses cs hlook]
    exact hw

/-- Columns are among what is built. -/
theorem Ran.columns (R : Ran L equalScalar ents rels a r S st d s1 s2 s3 s4 s5 s6 s7 fs) {c : String} (hc : c ∈ st.keys) {f : DFeat} (hf : UsableColumn ents a c f) :
    ∃ cs, Lists st c cs ∧ f ∈ cs := by
  obtain ⟨d', v, hd', hv, rfl, hu, hig, hse⟩ := hf
  have hid : d'.id = c := (find_ent (S := S) (by rw [R.conf.ents]; exact hd')).2
  refine (R.done hc).cols d' (by rw [R.conf.ents]; exact hd') v hv (by
      rw [R.conf.vars_ignored, hid]
      rintro ⟨⟨vs, h1, h2⟩, _⟩
      exact hig vs h1 h2) (by
      intro hm
      obtain ⟨g, hg, he⟩ := List.mem_map.mp hm
      exact hse g ((R.conf.seeds g).mp hg) he) hu

theorem Ran.fresh (R : Ran L equalScalar ents rels a r S st d s1 s2 s3 s4 s5 s6 s7 fs) {f : DFeat} (hf : f ∈ fs) (hk : ∀ q, f.kind ≠ .trans q ∧ f.kind ≠ .groupby q) :
    ∃ fs6, Lists s6 a.target fs6 ∧ f ∈ fs6 ∧ ((∀ q, f.kind ≠ .direct q) → ∃ fs3, Lists s3 a.target fs3 ∧ f ∈ fs3) := by
  obtain ⟨fs6, fs3, l6, l3, o1, o2, _⟩ := R.origin
  have hl : ¬Later f := by
    rintro (⟨q, h⟩ | ⟨q, h⟩)
    · exact (hk q).1 h
    · exact (hk q).2 h
  have h6 := (o1 f hf).resolve_right hl
  refine ⟨fs6, l6, h6, fun hd => ⟨fs3, l3, ?_⟩⟩
  rcases o2 f h6 with h | ⟨q, h⟩ | h
  · exact h
  · exact absurd h (hd q)
  · exact absurd h hl

theorem transStackOk_of {t : List DFeat} (h : ∀ f ∈ t, Proper f ∧ (∀ q, MadeBy q f → q.transform = false) ∧
    ∀ q, f.kind = .direct q → ∀ b ∈ f.bases, ∀ q', MadeBy q' b → q'.transform = false) : transStackOk t = true := by
  have key : ∀ f, Proper f → (∀ q, MadeBy q f → q.transform = false) → f.prim.transform = false := by
    intro f hp hm
    rcases prim_behind hp with h | ⟨_, h⟩
    · exact hm _ h
    · rw [h]; rfl
  unfold transStackOk
  rw [List.all_eq_true]
  intro f hf
  obtain ⟨h1, h2, h3⟩ := h f hf
  rw [key f h1 h2]
  simp only [Bool.not_false, Bool.true_and, Bool.not_eq_true', Bool.and_eq_false_imp]
  intro hd
  obtain ⟨q, hq⟩ : ∃ q, f.kind = .direct q := by
    unfold DFeat.isDirect at hd
    split at hd
    · next q hq => exact ⟨q, hq⟩
    · cases hd
  cases h1 with
  | direct q' e n hb => exact key _ hb (h3 q hq _ (by simp [DFeat.bases]))
  | _ => cases hq

theorem sameDirect_iff {t : List DFeat} (hn : t ≠ []) (hp : ∀ f ∈ t, Proper f) :
    ((∀ f ∈ t, ∃ r, f.kind = .direct r) ∧ ∀ f ∈ t, ∀ g ∈ t, f.path = g.path) ↔ ∃ q, ∀ f ∈ t, f.kind = .direct q := by
  have hpath : ∀ (f : DFeat) q, f.kind = .direct q → f.path = [(true, q)] := by
    rintro ⟨k, e, n, b, w⟩ q hk
    cases hk
    rfl
  constructor
  · rintro ⟨h1, h2⟩
    match t, hn, h1, h2 with
    | f :: t, _, h1, h2 =>
      obtain ⟨q, hq⟩ := h1 f List.mem_cons_self
      refine ⟨q, fun g hg => ?_⟩
      obtain ⟨q', hq'⟩ := h1 g hg
      have := h2 f List.mem_cons_self g hg
      rw [hpath f q hq, hpath g q' hq'] at this
      cases this
      exact hq'
  · rintro ⟨q, h⟩
    exact ⟨fun f hf => ⟨q, h f hf⟩, fun f hf g hg => by rw [hpath f q (h f hf), hpath g q (h g hg)]⟩

/-- What is offered at the end and is not transformed has been offered before the transforms. -/
theorem Ran.offered (R : Ran L equalScalar ents rels a r S st d s1 s2 s3 s4 s5 s6 s7 fs) {f : DFeat} (hf : Offered L (· ∈ fs) f)
    (hk : ∀ q, f.kind ≠ .trans q ∧ f.kind ≠ .groupby q) (hsl : ∀ i, f.kind = .slice i → ∀ b ∈ f.bases, ∃ path p, b.kind = .agg path p) :
    ∃ fs6, Lists s6 a.target fs6 ∧ Offered L (· ∈ fs6) f ∧ ((∀ q, f.kind ≠ .direct q) → ∃ fs3, Lists s3 a.target fs3 ∧ Offered L (· ∈ fs3) f) := by
  rcases hf with ⟨h1, h2⟩ | ⟨g, i, hg, ho, hn⟩
  · obtain ⟨fs6, l6, m6, h3⟩ := R.fresh h1 hk
    refine ⟨fs6, l6, .inl ⟨m6, h2⟩, fun hd => ?_⟩
    obtain ⟨fs3, l3, m3⟩ := h3 hd
    exact ⟨fs3, l3, .inl ⟨m3, h2⟩⟩
  · obtain ⟨path, p, hp⟩ := hsl i (by rw [ho.2.2.1]; rfl) g (by rw [ho.2.2.1]; simp [DFeat.bases])
    obtain ⟨fs6, l6, m6, h3⟩ := R.fresh hg (fun q => by rw [hp]; exact ⟨by simp, by simp⟩)
    obtain ⟨fs3, l3, m3⟩ := h3 (fun q => by rw [hp]; simp)
    have names : ∀ {s : DState} {l : List DFeat}, StateOk S a.target (effectiveDepth S a.maxDepth) s → Lists s a.target l →
        (∀ n, Present s a.target n → Present s7 a.target n) → ∀ g' ∈ l, g'.name ≠ f.name := by
      intro s l hok hl hpres g' hg' he
      have e1 : g'.entity = a.target := ((hok.feats _ (lookup_mem_pair hl)).2.2 g' hg').2.1
      obtain ⟨fs', hfs', x, hx, hxn⟩ := hpres g'.uname ⟨l, hl, g', hg', rfl⟩
      have : fs' = fs := Option.some.inj (hfs'.symm.trans R.lists7)
      subst this
      have e2 : x.entity = a.target := ((R.ok.feats _ (lookup_mem_pair R.final)).2.2 x hx).2.1
      unfold DFeat.uname at hxn
      rw [e1, e2] at hxn
      exact hn x hx ((append_cancel hxn).trans he)
    exact ⟨fs6, l6, .inr ⟨g, i, m6, ho, names R.ok6 l6 fun n => R.from6⟩, fun _ => ⟨fs3, l3, .inr ⟨g, i, m3, ho, names R.ok3 l3 fun n => R.from3⟩⟩⟩

/-- The inputs of a transform primitive. -/
theorem Ran.transforms (R : Ran L equalScalar ents rels a r S st d s1 s2 s3 s4 s5 s6 s7 fs) (hL : ∀ l, (L.setOrder l).Perm l)
    (hs : ∀ f ∈ a.seeds, Proper f) {p : Prim} {t : List DFeat} (ht : t ≠ []) (hfit : Fits L.sub p.inputs t) (hdis : Distinct t)
    (hin : ∀ f ∈ t, Offered L (· ∈ fs) f ∧ NothingIgnored a p f ∧ NotTransformed f ∧
      ∀ n, DepChain (a.seeds.map DFeat.uname) f n → WithinLimit ents a.maxDepth (n + 1)) :
    ((∀ f ∈ t, ∀ q, f.kind ≠ .direct q) → ∃ u ∈ transInputs S s3 a.target (lower1 (effectiveDepth S a.maxDepth)) p false, u.Perm t ∧ (p.commutative = false → u = t)) ∧
    (∃ u ∈ transInputs S s6 a.target (lower1 (effectiveDepth S a.maxDepth)) p false, u.Perm t ∧ (p.commutative = false → u = t)) ∧
    ((∃ f ∈ t, ∃ q, f.kind = .direct q) → (¬∃ q, ∀ f ∈ t, f.kind = .direct q) →
      ∃ u ∈ transInputs S s6 a.target (lower1 (effectiveDepth S a.maxDepth)) p true, u.Perm t ∧ (p.commutative = false → u = t)) := by
  have hno : NoOptions a.options p := by
    match t, ht, hin with
    | f :: _, _, hin => exact (hin f List.mem_cons_self).2.1.1
  have hLS : ∀ l, (S.L.setOrder l).Perm l := by rw [R.conf.lang]; exact hL
  have hprop : ∀ f ∈ t, Proper f := fun f hf => offered_proper (R.proper hs R.final) (hin f hf).1
  have hstack : transStackOk t = true := transStackOk_of fun f hf => ⟨hprop f hf, (hin f hf).2.2.1.2.2⟩
  have mem : ∀ {s : DState}, StateOk S a.target (effectiveDepth S a.maxDepth) s → (∀ f ∈ t, ∃ l, Lists s a.target l ∧ Offered L (· ∈ l) f) →
      ∀ f ∈ t, f ∈ featuresByType S s a.target (lower1 (effectiveDepth S a.maxDepth)) (some p.inputs) ∧
        variableFilter S.L.sub f { ignoreEntities := a.ignoreEntities, ignoreVars := a.ignoreVariables } false = true := by
    intro s hok hl f hf
    obtain ⟨h1, h3, h4, h5⟩ := hin f hf
    obtain ⟨l, hl, hm⟩ := hl f hf
    refine ⟨offered_mem hok hl (by rw [R.conf.lang]; exact hm) ?_ ?_, nothingIgnored_filter h3 _⟩
    · rw [withinDepth_lower, withinDepth_limit]
      exact depth_limit R.conf (hprop f hf) h5
    · intro ts hts
      cases hts
      rw [R.conf.lang]
      exact hfit.mem_types f hf
  have h6 : ∀ f ∈ t, ∃ l, Lists s6 a.target l ∧ Offered L (· ∈ l) f := fun f hf => by
    obtain ⟨l, hl, hm, _⟩ := R.offered (hin f hf).1 (hin f hf).2.2.1.1 (hin f hf).2.2.1.2.1
    exact ⟨l, hl, hm⟩
  have hfit' : Fits S.L.sub p.inputs t := by rw [R.conf.lang]; exact hfit
  refine ⟨fun hd => ?_, ?_, fun hsome hnot => ?_⟩
  · refine transInputs_complete hLS R.ok3 (opts_single R.conf hno) ht hfit' (mem R.ok3 fun f hf => ?_) hdis (fun f hf => offered_outputs (hin f hf).1) hstack (fun h => by cases h)
    obtain ⟨_, _, _, h⟩ := R.offered (hin f hf).1 (hin f hf).2.2.1.1 (hin f hf).2.2.1.2.1
    exact h (hd f hf)
  · exact transInputs_complete hLS R.ok6 (opts_single R.conf hno) ht hfit' (mem R.ok6 h6) hdis (fun f hf => offered_outputs (hin f hf).1) hstack (fun h => by cases h)
  · exact transInputs_complete hLS R.ok6 (opts_single R.conf hno) ht hfit' (mem R.ok6 h6) hdis (fun f hf => offered_outputs (hin f hf).1) hstack
      (fun _ => ⟨hsome, fun h => hnot ((sameDirect_iff ht hprop).mp h)⟩)

theorem gb_filter {sub : String → String → Bool} {f : DFeat} {es : List String} {vs : VarDict} (h : sub f.vtype "Discrete" = true) :
    variableFilter sub f { ignoreEntities := es, ignoreVars := vs } true = true := by
  rw [variableFilter_groupby_iff]
  refine ⟨h, fun g _ => ?_⟩
  exact ⟨fun _ l hl => (by cases hl), fun _ _ => ⟨fun l hl => (by cases hl), ⟨fun l hl => (by cases hl), fun l hl => (by cases hl)⟩⟩,
    fun _ => ⟨fun l hl => (by cases hl), fun l hl => (by cases hl)⟩⟩

/-- The features to group by. -/
theorem Ran.groups (R : Ran L equalScalar ents rels a r S st d s1 s2 s3 s4 s5 s6 s7 fs) (hs : ∀ f ∈ a.seeds, Proper f) {p : Prim} (hno : NoOptions a.options p)
    {s : DState} (hok : StateOk S a.target (effectiveDepth S a.maxDepth) s) {l : List DFeat} (hl : Lists s a.target l) {g : DFeat} (hg : Offered L (· ∈ l) g) (hgf : Offered L (· ∈ fs) g)
    (hid : L.sub g.vtype "Id" = true) (hdi : L.sub g.vtype "Discrete" = true)
    (hd : ∀ n, DepChain (a.seeds.map DFeat.uname) g n → WithinLimit ents a.maxDepth (n + 1)) :
    [g] ∈ groupbyMatches S s a.target (lower1 (effectiveDepth S a.maxDepth)) p := by
  have hprop : Proper g := offered_proper (R.proper hs R.final) hgf
  have hdf := (featuresByType_spec hok (e := a.target) (m := lower1 (effectiveDepth S a.maxDepth)) (types := some ["Id"])).2
  unfold groupbyMatches
  rw [opts_single R.conf hno]
  have hmem : g ∈ featuresByType S s a.target (lower1 (effectiveDepth S a.maxDepth)) (some ["Id"]) := by
    refine offered_mem hok hl (by rw [R.conf.lang]; exact hg) ?_ ?_
    · rw [withinDepth_lower, withinDepth_limit]
      exact depth_limit R.conf hprop hd
    · intro ts hts
      cases hts
      exact ⟨"Id", by simp, by rw [R.conf.lang]; exact hid⟩
  refine filterMatches_complete hdf (fun m hm f hf => ?_) (List.mem_map.mpr ⟨g, hmem, rfl⟩) ?_
  · obtain ⟨g', hg', rfl⟩ := List.mem_map.mp hm
    simp only [List.mem_singleton] at hf
    subst hf
    exact hg'
  · simp only [validMatch, List.all_cons, List.all_nil, Bool.and_true]
    exact gb_filter (by rw [R.conf.lang]; exact hdi)

/-- Features of a parent. -/
theorem Ran.directs (R : Ran L equalScalar ents rels a r S st d s1 s2 s3 s4 s5 s6 s7 fs) (hs : ∀ f ∈ a.seeds, Proper f) {q : Relationship} (hq : q ∈ rels)
    (hc : q.childE = a.target) (hi : q.parentE ∉ a.ignoreEntities) (hpath : AllowedPath a [a.target, q.parentE]) {cs : List DFeat} (hcs : Lists st q.parentE cs)
    {f : DFeat} (hf : Offered L (· ∈ cs) f) (hlink : ¬LinkColumn [q] f)
    (hd : ∀ n, DepChain (a.seeds.map DFeat.uname) f n → WithinLimit ents a.maxDepth n) :
    Present s6 a.target (a.target ++ ": " ++ L.namer.direct q f.name) := by
  have hne : q.parentE ≠ a.target := fun h => R.acyclic [q] a.target ⟨hq, hc, h⟩ (by simp) rfl
  have hav : allowedVia S [] (q.parentE, [(true, q)]) = true := by
    unfold allowedVia
    simp only [Bool.and_eq_true, Bool.not_eq_true', Bool.or_eq_true]
    refine ⟨?_, ?_⟩
    · have : q.parentE ∉ S.ignoreEnts := fun h => hi ((R.conf.ents_ignored _).mp h).1
      simpa using this
    · rw [R.paths]
      rcases hpath with h | h
      · left; simp [h]
      · right
        simpa [pathEntities, hc] using h
  have h5 : Lists s5 q.parentE cs := ((R.course.kept5 _ hne).symm).trans hcs
  have := (directAll_adds R.stages.direct).2 q (by rw [R.conf.rels]; exact hq) hc hne hav f
    (offered_mem R.ok5 h5 (by rw [R.conf.lang]; exact hf) (by
      rw [withinDepth_limit]
      have := depth_limit (k := 0) R.conf (offered_proper (R.proper hs hcs) hf) hd
      exact this) (fun ts hts => by cases hts))
    (by rw [← Bool.not_eq_true, inRelPath_iff]; exact hlink)
  rw [R.conf.lang] at this
  exact this

theorem Ran.builtFor (R : Ran L equalScalar ents rels a r S st d s1 s2 s3 s4 s5 s6 s7 fs) {c : String} {cs : List DFeat} (h : Lists st c cs) {f : DFeat} (hf : f ∈ cs) :
    BuiltFor L equalScalar ents rels a c f := ⟨S, st, cs, R.run.1, R.run.2, lookup_mem_pair h, hf⟩

theorem Ran.ofBuilt (R : Ran L equalScalar ents rels a r S st d s1 s2 s3 s4 s5 s6 s7 fs) {c : String} {f : DFeat} (h : BuiltFor L equalScalar ents rels a c f) :
    ∃ cs, Lists st c cs ∧ f ∈ cs := by
  obtain ⟨S', st', cs, h1, h2, h3, h4⟩ := h
  have : S' = S := by have := R.run.1; rw [h1] at this; cases this; rfl
  subst this
  have : st' = st := by have := R.run.2; rw [h2] at this; cases this; rfl
  subst this
  exact ⟨cs, R.lists_of_mem h3, h4⟩

theorem Ran.built_iff (R : Ran L equalScalar ents rels a r S st d s1 s2 s3 s4 s5 s6 s7 fs) {c : String} {cs : List DFeat} (h : Lists st c cs) (f : DFeat) :
    BuiltFor L equalScalar ents rels a c f ↔ f ∈ cs := by
  constructor
  · intro hf
    obtain ⟨cs', hcs', hm⟩ := R.ofBuilt hf
    have : cs' = cs := Option.some.inj (hcs'.symm.trans h)
    exact this ▸ hm
  · exact R.builtFor h

theorem Ran.offered_iff (R : Ran L equalScalar ents rels a r S st d s1 s2 s3 s4 s5 s6 s7 fs) {c : String} {cs : List DFeat} (h : Lists st c cs) (f : DFeat) :
    Offered L (BuiltFor L equalScalar ents rels a c) f ↔ Offered L (· ∈ cs) f := by
  have : BuiltFor L equalScalar ents rels a c = (· ∈ cs) := funext fun g => propext (R.built_iff h g)
  rw [this]

theorem Ran.offeredList (R : Ran L equalScalar ents rels a r S st d s1 s2 s3 s4 s5 s6 s7 fs) {c : String} {f : DFeat}
    (h : Offered L (BuiltFor L equalScalar ents rels a c) f) : ∃ cs, Lists st c cs := by
  rcases h with ⟨h, _⟩ | ⟨g, _, h, _⟩
  all_goals
    obtain ⟨cs, hcs, _⟩ := R.ofBuilt h
    exact ⟨cs, hcs⟩

theorem Ran.commonList (R : Ran L equalScalar ents rels a r S st d s1 s2 s3 s4 s5 s6 s7 fs) {c : String} {t : List DFeat} (ht : t ≠ [])
    (h : ∀ f ∈ t, Offered L (BuiltFor L equalScalar ents rels a c) f) : ∃ cs, Lists st c cs ∧ ∀ f ∈ t, Offered L (· ∈ cs) f := by
  match t, ht with
  | f :: t, _ =>
    obtain ⟨cs, hcs⟩ := R.offeredList (h f List.mem_cons_self)
    exact ⟨cs, hcs, fun g hg => (R.offered_iff hcs g).mp (h g hg)⟩

theorem Ran.several (R : Ran L equalScalar ents rels a r S st d s1 s2 s3 s4 s5 s6 s7 fs) {c : String}
    (hk : ∃ dc, ents.find? (fun d => d.id == c) = some dc) (hce : c ≠ a.target) : ents.length ≠ 1 := by
  intro h1
  obtain ⟨dc, hdc⟩ := hk
  have hf := R.stages.found
  rw [R.conf.ents] at hf
  match ents, h1, hdc, hf with
  | [x], _, hdc, hf =>
    have e1 : x.id = c := by
      rw [List.find?_cons] at hdc
      split at hdc
      · next h => simpa using h
      · cases hdc
    have e2 : x.id = a.target := by
      rw [List.find?_cons] at hf
      split at hf
      · next h => simpa using h
      · cases hf
    exact hce (e1.symm.trans e2)

theorem Ran.parent_key (R : Ran L equalScalar ents rels a r S st d s1 s2 s3 s4 s5 s6 s7 fs) {q : Relationship} (hq : q ∈ rels)
    (hc : q.childE = a.target) (hm : a.maxDepth ≠ 0) (hi : q.parentE ∉ a.ignoreEntities) (hpath : AllowedPath a [a.target, q.parentE])
    (hk : ∃ dc, ents.find? (fun d => d.id == q.parentE) = some dc) : q.parentE ∈ st.keys := by
  have hne : q.parentE ≠ a.target := fun h => R.acyclic [q] a.target ⟨hq, hc, h⟩ (by simp) rfl
  have hav : allowedVia S [] (q.parentE, [(true, q)]) = true := by
    unfold allowedVia
    simp only [Bool.and_eq_true, Bool.not_eq_true', Bool.or_eq_true]
    refine ⟨?_, ?_⟩
    · have : q.parentE ∉ S.ignoreEnts := fun h => hi ((R.conf.ents_ignored _).mp h).1
      simpa using this
    · rw [R.paths]
      rcases hpath with h | h
      · left; simp [h]
      · right
        simpa [pathEntities, hc] using h
  have hlen : ents.length ≠ 1 := R.several hk hne
  have hlive := R.live
  have hx : exhausted (lower1 (effectiveDepth S a.maxDepth)) = false := by
    unfold effectiveDepth at hlive ⊢
    rw [R.conf.ents] at hlive ⊢
    by_cases hmm : a.maxDepth = -1
    · simp [hmm, hlen, lower1, exhausted]
    · simp [hmm, hlen, exhausted, lower1] at hlive ⊢
      omega
  have h5 := R.course.k5 hx (q.parentE, [(true, q)]) (List.mem_map.mpr ⟨q, List.mem_filter.mpr ⟨by rw [R.conf.rels]; exact hq, by simpa using hc⟩, rfl⟩) hav
  obtain ⟨cs, hcs⟩ := mem_keys.mp h5
  exact mem_keys.mpr ⟨cs, (R.course.kept5 _ hne).trans hcs⟩

theorem whereCount_none {t : List DFeat} (h : ∀ f ∈ t, NoWhere f) : whereCount t = 0 := by
  unfold whereCount
  rw [List.length_eq_zero_iff, List.flatMap_eq_nil_iff]
  intro f hf
  rw [List.filter_eq_nil_iff]
  intro g hg hw
  simp only [Bool.and_eq_true, Bool.not_eq_true', List.isEmpty_eq_false_iff] at hw
  refine h f hf g ?_ ⟨?_, hw.2⟩
  · rcases List.mem_cons.mp hg with rfl | hg
    · exact .self (by simp)
    · obtain ⟨d, hd, hu⟩ := ddeps_mem hg
      exact .dep (by simp) hd hu
  · have := hw.1
    unfold DFeat.isAgg at this
    split at this
    · next p q hk => exact ⟨p, q, hk⟩
    · cases this

theorem Ran.clause_of (R : Ran L equalScalar ents rels a r S st d s1 s2 s3 s4 s5 s6 s7 fs) {c : String} {cs : List DFeat} (hcs : Lists st c cs)
    {dc : DEnt} (hdc : ents.find? (fun d => d.id == c) = some dc) {v : DVar} (hv : v ∈ dc.vars) (hvid : ∀ v' ∈ dc.vars, v'.id = v.id → v' = v)
    (hk : column dc v ∈ cs) {x : Val} (hx : x ∈ v.interesting)
    (hname : ∀ x' n', L.namer.trans (equalScalar x') [n'] = L.namer.trans (equalScalar x) [v.name] → n' = v.name) :
    ∃ w ∈ newClauses S cs, w.name = L.namer.trans (equalScalar x) [v.name] ∧ ∀ b ∈ w.bases, b.uname = (column dc v).uname := by
  have hid : dc.id = c := by have := List.find?_some hdc; simpa using this
  have hint : interestingOf S (dc.id, v.id) = v.interesting := by
    unfold interestingOf
    rw [R.conf.ents, hid, hdc]
    show (match dc.vars.find? (fun v' => v'.id == v.id) with | none => [] | some v => v.interesting) = v.interesting
    cases hf : dc.vars.find? (fun v' => v'.id == v.id) with
    | none => rw [List.find?_eq_none] at hf; exact absurd (beq_self_eq_true v.id) (hf v hv)
    | some v' =>
      have h1 := List.find?_some hf
      have : v' = v := hvid v' (List.mem_of_find?_eq_some hf) (by simpa using h1)
      rw [this]
  have hent : ∀ g ∈ cs, g.entity = c := fun g hg => ((R.ok.feats _ (lookup_mem_pair hcs)).2.2 g hg).2.1
  have hmem : clauseOf S (column dc v) x ∈ cs.flatMap fun f => match varOf f with
      | none => []
      | some x => (interestingOf S x).map (clauseOf S f) := by
    refine List.mem_flatMap.mpr ⟨column dc v, hk, ?_⟩
    show _ ∈ (interestingOf S (dc.id, v.id)).map (clauseOf S (column dc v))
    rw [hint]
    exact List.mem_map.mpr ⟨x, hx, rfl⟩
  obtain ⟨w, hw, hwu⟩ := dedupOn_key DFeat.uname hmem
  refine ⟨w, hw, ?_⟩
  obtain ⟨f, hf, hwf⟩ := List.mem_flatMap.mp (mem_of_dedupOn _ hw)
  obtain ⟨x', rfl⟩ : ∃ x', w = clauseOf S f x' := by
    split at hwf
    · cases hwf
    · obtain ⟨x', _, h⟩ := List.mem_map.mp hwf
      exact ⟨x', h.symm⟩
  have hn : (clauseOf S f x').name = (clauseOf S (column dc v) x).name := by
    unfold DFeat.uname at hwu
    have e1 : (clauseOf S f x').entity = c := hent f hf
    have e2 : (clauseOf S (column dc v) x).entity = c := hid
    rw [e1, e2] at hwu
    exact append_cancel hwu
  have hn' : L.namer.trans (equalScalar x') [f.name] = L.namer.trans (equalScalar x) [v.name] := by
    have h1 : (clauseOf S f x').name = S.L.namer.trans (S.equalScalar x') [f.name] := rfl
    have h2 : (clauseOf S (column dc v) x).name = S.L.namer.trans (S.equalScalar x) [v.name] := rfl
    rw [h1, h2, R.conf.lang, R.conf.scalar] at hn
    exact hn
  refine ⟨?_, fun b hb => ?_⟩
  · have h1 : (clauseOf S f x').name = S.L.namer.trans (S.equalScalar x') [f.name] := rfl
    rw [h1, R.conf.lang, R.conf.scalar]
    exact hn'
  · have : b = f := by simpa [clauseOf, DFeat.bases] using hb
    subst this
    unfold DFeat.uname
    rw [hname x' _ hn', hent b hf]
    show c ++ ": " ++ v.name = dc.id ++ ": " ++ v.name
    rw [hid]

end
end FT
