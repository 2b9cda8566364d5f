import Verif.Lemmas.DfsComplete5
/-!
# What Deep Feature Synthesis must find (C61)

The theorems are about calls that select nothing (`C39_selection` says what other selections keep).
-/
namespace FT
open FT.Spec

section
variable (L : Lang) (equalScalar : Val → Prim) (ents : List DEnt) (rels : List Relationship) (a : DfsArgs)

/-! ## Columns and seeds of the target -/

/-- C61. Every usable column of the target other than its index is returned. -/
theorem C61_columns (hL : ∀ l, (L.setOrder l).Perm l) (hsel : a.sel = ⟨none, [], [], -1⟩) {r : List DFeat}
    (h : dfsFeatures L equalScalar ents rels a = .ok r) {f : DFeat} (hf : UsableColumn ents a a.target f)
    (hi : ∀ d, ents.find? (fun d => d.id == a.target) = some d → ∀ v t, f.kind = .identity v t → v ≠ d.index) : f ∈ r := by
  obtain ⟨S, st, d, s1, s2, s3, s4, s5, s6, s7, fs, R⟩ := dfs_ran hL hsel h
  obtain ⟨d', v, hd', hv, rfl, hu, hig, hse⟩ := hf
  have hfound : ents.find? (fun d => d.id == a.target) = some d := by have := R.stages.found; rwa [R.conf.ents] at this
  have : d' = d := Option.some.inj (hd'.symm.trans hfound)
  subst this
  have hid : d'.id = a.target := (find_ent R.stages.found).2
  have hco := R.course
  have hcols : ColsAt S s7 a.target := hco.a7.cols (hco.a6.cols (hco.v5.frozen.cols R.target_key (hco.a4.cols (hco.a3.cols (hco.v2.frozen.cols hco.own hco.cols)))))
  obtain ⟨fs', hfs', hm⟩ := hcols d' R.stages.found v hv (by
      rw [R.conf.vars_ignored, hid]
      rintro ⟨⟨vs, h1, h2⟩, _⟩
      exact hig vs h1 h2) (by
      intro hm
      obtain ⟨g, hg, he⟩ := List.mem_map.mp hm
      exact hse g ((R.conf.seeds g).mp hg) he) hu
  have : fs' = fs := Option.some.inj (hfs'.symm.trans R.lists7)
  subst this
  refine (R.returned _).mpr ⟨hm, ?_⟩
  unfold notTargetIndex
  show (!(_ && (S.ents.find? fun d => d.id == a.target).any fun d => d.index == v.id)) = true
  rw [R.stages.found]
  simp only [Option.any_some, Bool.not_eq_true', Bool.and_eq_false_imp, beq_iff_eq, beq_eq_false_iff_ne, ne_eq]
  exact fun _ h => hi d' hd' v.id v.type rfl h.symm

/-- C61. For every seed feature of the target a feature of its name is returned: a seed feature, or one the search built. A column
of that name is replaced. -/
theorem C61_seeds (hL : ∀ l, (L.setOrder l).Perm l) (hsel : a.sel = ⟨none, [], [], -1⟩) {r : List DFeat}
    (h : dfsFeatures L equalScalar ents rels a = .ok r) {f : DFeat} (hf : f ∈ a.seeds) (he : f.entity = a.target)
    (hi : ∀ g ∈ a.seeds, ∀ v t, g.kind = .identity v t → ∀ d, ents.find? (fun d => d.id == a.target) = some d → v ≠ d.index) :
    (∃ g ∈ r, g.name = f.name) ∧ ∀ g ∈ r, g.name = f.name → g ∈ a.seeds ∨ ∀ v t, g.kind ≠ .identity v t := by
  obtain ⟨S, st, d, s1, s2, s3, s4, s5, s6, s7, fs, R⟩ := dfs_ran hL hsel h
  have hfound : ents.find? (fun d => d.id == a.target) = some d := by have := R.stages.found; rwa [R.conf.ents] at this
  obtain ⟨hd, hid⟩ := find_ent R.stages.found
  have h0 : Lists { feats := (a.target, []) :: [], clauses := [] } d.id [] := by rw [hid]; simp [Lists]
  obtain ⟨_, _, hpres, _, hseed⟩ := addIdentity_adds hd h0 R.stages.identity
  have hfS : f ∈ S.seeds := (R.conf.seeds f).mpr hf
  obtain ⟨fs6, fs3, l6, l3, o1, o2, _, fs1, l1, o3⟩ := R.origin
  have key : ∀ g ∈ fs, g.uname = f.uname → g ∈ a.seeds ∨ ∀ v t, g.kind ≠ .identity v t := by
    intro g hg hn
    rcases o1 g hg with h1 | h1
    · rcases o2 g h1 with h1 | ⟨q, h1⟩ | h1
      · rcases o3 g h1 with h1 | ⟨_, _, h1⟩
        · exact .inl ((R.conf.seeds g).mp (hseed f hfS (he.trans hid.symm) fs1 (hid ▸ l1) g h1 hn))
        · exact .inr fun v t hk => by rw [h1] at hk; cases hk
      · exact .inr fun v t hk => by rw [h1] at hk; cases hk
      · exact .inr fun v t hk => by rcases h1 with ⟨_, h1⟩ | ⟨_, h1⟩ <;> (rw [h1] at hk; cases hk)
    · exact .inr fun v t hk => by rcases h1 with ⟨_, h1⟩ | ⟨_, h1⟩ <;> (rw [h1] at hk; cases hk)
  have hent : ∀ g ∈ fs, g.entity = a.target := fun g hg => ((R.ok.feats _ (lookup_mem_pair R.final)).2.2 g hg).2.1
  constructor
  · have := hpres f hfS (he.trans hid.symm)
    rw [hid] at this
    obtain ⟨fs', hfs', g, hg, hn⟩ := R.from1 this
    have : fs' = fs := Option.some.inj (hfs'.symm.trans R.lists7)
    subst this
    refine ⟨g, (R.returned g).mpr ⟨hg, ?_⟩, ?_⟩
    · unfold notTargetIndex
      split
      · next v t hk =>
        rcases key g hg hn with h1 | h1
        · rw [R.stages.found]
          simp only [Option.any_some, Bool.not_eq_true', Bool.and_eq_false_imp, beq_iff_eq, beq_eq_false_iff_ne, ne_eq]
          exact fun _ h => hi g h1 v t hk d hfound h.symm
        · exact absurd hk (h1 v t)
      · rfl
    · unfold DFeat.uname at hn
      rw [hent g hg, he] at hn
      exact append_cancel hn
  · intro g hg hn
    have hg' := ((R.returned g).mp hg).1
    exact key g hg' (by unfold DFeat.uname; rw [hn, hent g hg', he])

/-! ## What is built for other entities -/

/-- C61. What is returned has been built for the target. -/
theorem C61_returned_built (hL : ∀ l, (L.setOrder l).Perm l) (hsel : a.sel = ⟨none, [], [], -1⟩) {r : List DFeat}
    (h : dfsFeatures L equalScalar ents rels a = .ok r) : ∀ f ∈ r, BuiltFor L equalScalar ents rels a a.target f := by
  intro f hf
  obtain ⟨S, st, d, s1, s2, s3, s4, s5, s6, s7, fs, R⟩ := dfs_ran hL hsel h
  exact R.builtFor R.final ((R.returned f).mp hf).1

/-- C61. All that is built for the target is returned, except its index column. -/
theorem C61_built_returned (hL : ∀ l, (L.setOrder l).Perm l) (hsel : a.sel = ⟨none, [], [], -1⟩) {r : List DFeat}
    (h : dfsFeatures L equalScalar ents rels a = .ok r) {f : DFeat} (hf : BuiltFor L equalScalar ents rels a a.target f) :
    f ∈ r ↔ ¬∃ d v t, ents.find? (fun d => d.id == a.target) = some d ∧ f.kind = .identity v t ∧ v = d.index := by
  obtain ⟨S, st, d, s1, s2, s3, s4, s5, s6, s7, fs, R⟩ := dfs_ran hL hsel h
  have hm := (R.built_iff R.final f).mp hf
  have hent : f.entity = a.target := ((R.ok.feats _ (lookup_mem_pair R.final)).2.2 f hm).2.1
  have hfound : ents.find? (fun d => d.id == a.target) = some d := by rw [← R.conf.ents]; exact R.stages.found
  rw [R.returned]
  unfold notTargetIndex
  rw [R.stages.found, hent]
  constructor
  · rintro ⟨_, h1⟩ ⟨d', v, t, hd', hk, rfl⟩
    cases hfound.symm.trans hd'
    rw [hk] at h1
    simp at h1
  · intro h1
    refine ⟨hm, ?_⟩
    split
    · next v t hk =>
      simp only [beq_self_eq_true, Option.any_some, Bool.true_and, Bool.not_eq_true', beq_eq_false_iff_ne, ne_eq]
      exact fun he => h1 ⟨d, v, t, hfound, hk, he.symm⟩
    · rfl

/-- C61. The usable columns of the target, of the descendants sure to be visited and of allowed parents are built for them. -/
theorem C61_built_columns (hL : ∀ l, (L.setOrder l).Perm l) (hsel : a.sel = ⟨none, [], [], -1⟩) {r : List DFeat}
    (h : dfsFeatures L equalScalar ents rels a = .ok r) {c : String} {f : DFeat} (hf : UsableColumn ents a c f)
    (hc : c = a.target ∨ (∃ chain, Chain rels c a.target chain ∧ chain ≠ [] ∧ SureBelow a c chain) ∨
      a.maxDepth ≠ 0 ∧ c ∉ a.ignoreEntities ∧ AllowedPath a [a.target, c] ∧ ∃ q ∈ rels, q.childE = a.target ∧ q.parentE = c) :
    BuiltFor L equalScalar ents rels a c f := by
  obtain ⟨S, st, d, s1, s2, s3, s4, s5, s6, s7, fs, R⟩ := dfs_ran hL hsel h
  have hk : c ∈ st.keys := by
    rcases hc with rfl | ⟨chain, h1, h2, h3⟩ | ⟨h1, h2, h3, q, hq, hqc, rfl⟩
    · exact mem_keys.mpr ⟨_, R.final⟩
    · obtain ⟨dc, _, hdc, _⟩ := hf
      obtain ⟨hc2, hce, _, _⟩ := R.below h1 h2 h3 ⟨dc, hdc⟩
      obtain ⟨cs, hcs⟩ := mem_keys.mp hc2
      exact mem_keys.mpr ⟨cs, ((R.course.kept2 c hc2 hce).1).trans hcs⟩
    · obtain ⟨dc, _, hdc, _⟩ := hf
      exact R.parent_key hq hqc h1 h2 h3 ⟨dc, hdc⟩
  obtain ⟨cs, hcs, hm⟩ := R.columns hk hf
  exact R.builtFor hcs hm

/-! ## Aggregations -/

/-- C61. An aggregation primitive without options of its own is applied, for a descendant that is sure to be visited (`SureBelow`), to
every fitting list of different features of the descendant: features of one output, or outputs of features of several, within the limit of which nothing is
ignored, on which the primitive may stack, no link columns of the path and not taken from the target itself. For a commutative
primitive the list is applied in one order. -/
theorem C61_aggregation_partial (hL : ∀ l, (L.setOrder l).Perm l) (hs : ∀ f ∈ a.seeds, Proper f) (hsel : a.sel = ⟨none, [], [], -1⟩) {r : List DFeat}
    (h : dfsFeatures L equalScalar ents rels a = .ok r) {c : String} {chain : List Relationship} (hch : Chain rels c a.target chain) (hne : chain ≠ [])
    (hsure : SureBelow a c chain) {p : Prim} (hp : p ∈ a.aggs) {t : List DFeat} (ht : t ≠ []) (hfit : Fits L.sub p.inputs t) (hdis : Distinct t)
    (hin : ∀ f ∈ t, Offered L (BuiltFor L equalScalar ents rels a c) f ∧ NothingIgnored a p f ∧ ¬LinkColumn chain f ∧
      (∀ q, f.kind = .direct q → q.parentE ≠ a.target) ∧
      (∀ n, DepChain (a.seeds.map DFeat.uname) f n → WithinLimit ents a.maxDepth (n + 1)) ∧ ∀ q, Behind q f → MayStack p q) :
    ∃ u, u.Perm t ∧ (p.commutative = false → u = t) ∧
      (FreeName ents a (L.namer.agg p (chain.reverse.map fun q => (false, q)) (u.map DFeat.name) none) →
        ∃ f ∈ r, f.name = L.namer.agg p (chain.reverse.map fun q => (false, q)) (u.map DFeat.name) none) := by
  obtain ⟨S, st, d, s1, s2, s3, s4, s5, s6, s7, fs, R⟩ := dfs_ran hL hsel h
  obtain ⟨cs, hcs, hmem⟩ := R.commonList ht fun f hf => (hin f hf).1
  obtain ⟨u, hu, hc, h1, _⟩ := R.aggregation hL hs hcs hch hne hsure hp ht hfit hdis fun f hf => ⟨hmem f hf, (hin f hf).2⟩
  exact ⟨u, hu, hc, fun hfree => R.present hfree (R.from3 h1)⟩

/-- C61. So with a limit of conditions above 0, a primitive for which conditions are to be built is also applied to the rows for which a
column of the descendant has one of its interesting values, if the inputs hold neither that column nor conditions. -/
theorem C61_where_partial (hL : ∀ l, (L.setOrder l).Perm l) (hs : ∀ f ∈ a.seeds, Proper f) (hsel : a.sel = ⟨none, [], [], -1⟩) {r : List DFeat}
    (h : dfsFeatures L equalScalar ents rels a = .ok r) {c : String} {chain : List Relationship} (hch : Chain rels c a.target chain) (hne : chain ≠ [])
    (hsure : SureBelow a c chain) {p : Prim} (hp : p ∈ a.aggs) {t : List DFeat} (ht : t ≠ []) (hfit : Fits L.sub p.inputs t) (hdis : Distinct t)
    (hin : ∀ f ∈ t, Offered L (BuiltFor L equalScalar ents rels a c) f ∧ NothingIgnored a p f ∧ ¬LinkColumn chain f ∧
      (∀ q, f.kind = .direct q → q.parentE ≠ a.target) ∧
      (∀ n, DepChain (a.seeds.map DFeat.uname) f n → WithinLimit ents a.maxDepth (n + 1)) ∧ ∀ q, Behind q f → MayStack p q)
    (hnw : ∀ f ∈ t, NoWhere f) (hlim : 0 < a.whereLimit) (hw : ∃ q ∈ a.wheres, q.cls ∈ p.supers)
    {dc : DEnt} (hdc : ents.find? (fun d => d.id == c) = some dc) {v : DVar} (hv : v ∈ dc.vars) (hvid : ∀ v' ∈ dc.vars, v'.id = v.id → v' = v)
    (hk : UsableColumn ents a c (column dc v)) (hkt : ∀ f ∈ t, f.uname ≠ (column dc v).uname) {x : Val} (hx : x ∈ v.interesting)
    (hname : ∀ x' n', L.namer.trans (equalScalar x') [n'] = L.namer.trans (equalScalar x) [v.name] → n' = v.name) :
    ∃ u, u.Perm t ∧ (p.commutative = false → u = t) ∧
      (FreeName ents a (L.namer.agg p (chain.reverse.map fun q => (false, q)) (u.map DFeat.name) (some (L.namer.trans (equalScalar x) [v.name]))) →
        ∃ f ∈ r, f.name = L.namer.agg p (chain.reverse.map fun q => (false, q)) (u.map DFeat.name) (some (L.namer.trans (equalScalar x) [v.name]))) := by
  obtain ⟨S, st, d, s1, s2, s3, s4, s5, s6, s7, fs, R⟩ := dfs_ran hL hsel h
  obtain ⟨cs, hcs, hmem⟩ := R.commonList ht fun f hf => (hin f hf).1
  obtain ⟨u, hu, hc, _, h2⟩ := R.aggregation hL hs hcs hch hne hsure hp ht hfit hdis fun f hf => ⟨hmem f hf, (hin f hf).2⟩
  refine ⟨u, hu, hc, fun hfree => R.present hfree (R.from3 ?_)⟩
  obtain ⟨cs', hcs', hkm⟩ := R.columns (mem_keys.mpr ⟨cs, hcs⟩) hk
  have : cs' = cs := Option.some.inj (hcs'.symm.trans hcs)
  subst this
  obtain ⟨w, hwm, hwn, hwb⟩ := R.clause_of hcs hdc hv hvid hkm hx hname
  rw [← hwn]
  refine h2 ?_ hw w hwm fun b hb hbu => ?_
  · rw [whereCount_none fun f hf => hnw f (hu.mem_iff.mp hf)]
    simpa using hlim
  · obtain ⟨f, hf, hfu⟩ := List.mem_map.mp hbu
    exact hkt f (hu.mem_iff.mp hf) (hfu.trans (hwb b hb))

/-! ## Transforms -/

/-- C61. A transform primitive without options of its own is applied to every fitting list of different features of the target,
returned ones and its index: features of one output, or outputs of aggregations of several, within the limit, of which nothing is ignored, that are no transforms or taken from
transforms, unless all of them are taken from a parent by the same relationship. -/
theorem C61_transform_partial (hL : ∀ l, (L.setOrder l).Perm l) (hs : ∀ f ∈ a.seeds, Proper f) (hsel : a.sel = ⟨none, [], [], -1⟩) {r : List DFeat}
    (h : dfsFeatures L equalScalar ents rels a = .ok r) {p : Prim} (hp : p ∈ a.trans) {t : List DFeat} (ht : t ≠ []) (hfit : Fits L.sub p.inputs t)
    (hdis : Distinct t) (hin : ∀ f ∈ t, Offered L (BuiltFor L equalScalar ents rels a a.target) f ∧ NothingIgnored a p f ∧ NotTransformed f ∧
      ∀ n, DepChain (a.seeds.map DFeat.uname) f n → WithinLimit ents a.maxDepth (n + 1))
    (hnot : ¬∃ q, ∀ f ∈ t, f.kind = .direct q) :
    ∃ u, u.Perm t ∧ (p.commutative = false → u = t) ∧
      (FreeName ents a (L.namer.trans p (u.map DFeat.name)) → ∃ f ∈ r, f.name = L.namer.trans p (u.map DFeat.name)) := by
  obtain ⟨S, st, d, s1, s2, s3, s4, s5, s6, s7, fs, R⟩ := dfs_ran hL hsel h
  have hmem : ∀ f ∈ t, Offered L (· ∈ fs) f := fun f hf => (R.offered_iff R.final f).mp (hin f hf).1
  have hno : NoOptions a.options p := by
    match t, ht, hin with
    | f :: _, _, hin => exact (hin f List.mem_cons_self).2.1.1
  obtain ⟨h1, _, h3⟩ := R.transforms hL hs ht hfit hdis fun f hf => ⟨hmem f hf, (hin f hf).2⟩
  have hskip := not_skipped R.conf hno R.conf.target false
  by_cases hd : ∃ f ∈ t, ∃ q, f.kind = .direct q
  · obtain ⟨u, hu, hperm, hcomm⟩ := h3 hd hnot
    have := (buildTransform_adds R.stages.trans2).2.1 p ((R.conf.trans p).mpr hp) hskip u hu
    rw [R.conf.lang] at this
    exact ⟨u, hperm, hcomm, fun hfree => R.present hfree this⟩
  · obtain ⟨u, hu, hperm, hcomm⟩ := h1 fun f hf q hq => hd ⟨f, hf, q, hq⟩
    have := (buildTransform_adds R.stages.trans).2.1 p ((R.conf.trans p).mpr hp) hskip u hu
    rw [R.conf.lang] at this
    exact ⟨u, hperm, hcomm, fun hfree => R.present hfree (R.from4 this)⟩

/-- C61. So is a group-by primitive, grouping by any feature of the target of type `Id` and `Discrete` that is no transform. What is
missing: grouping by a feature of a parent when no input is taken from a parent (`C61_groupby_violated`). -/
theorem C61_groupby_partial (hL : ∀ l, (L.setOrder l).Perm l) (hs : ∀ f ∈ a.seeds, Proper f) (hsel : a.sel = ⟨none, [], [], -1⟩) {r : List DFeat}
    (h : dfsFeatures L equalScalar ents rels a = .ok r) {p : Prim} (hp : p ∈ a.groupbys) {t : List DFeat} (ht : t ≠ []) (hfit : Fits L.sub p.inputs t)
    (hdis : Distinct t) (hin : ∀ f ∈ t, Offered L (BuiltFor L equalScalar ents rels a a.target) f ∧ NothingIgnored a p f ∧ NotTransformed f ∧
      ∀ n, DepChain (a.seeds.map DFeat.uname) f n → WithinLimit ents a.maxDepth (n + 1))
    {g : DFeat} (hg : Offered L (BuiltFor L equalScalar ents rels a a.target) g ∧ (∀ q, g.kind ≠ .trans q ∧ g.kind ≠ .groupby q) ∧
      (∀ i, g.kind = .slice i → ∀ b ∈ g.bases, ∃ path p, b.kind = .agg path p) ∧
      L.sub g.vtype "Id" = true ∧ L.sub g.vtype "Discrete" = true ∧
      ∀ n, DepChain (a.seeds.map DFeat.uname) g n → WithinLimit ents a.maxDepth (n + 1))
    (hdir : (∃ f ∈ t, ∃ q, f.kind = .direct q) ∨ ∀ q, g.kind ≠ .direct q) :
    ∃ u, u.Perm t ∧ (p.commutative = false → u = t) ∧
      (FreeName ents a (L.namer.groupby p (u.map DFeat.name) g.name) → ∃ f ∈ r, f.name = L.namer.groupby p (u.map DFeat.name) g.name) := by
  obtain ⟨S, st, d, s1, s2, s3, s4, s5, s6, s7, fs, R⟩ := dfs_ran hL hsel h
  have hall : ∀ f, Offered L (BuiltFor L equalScalar ents rels a a.target) f → Offered L (· ∈ fs) f := fun f => (R.offered_iff R.final f).mp
  have hno : NoOptions a.options p := by
    match t, ht, hin with
    | f :: _, _, hin => exact (hin f List.mem_cons_self).2.1.1
  obtain ⟨g1, g3, g3', g4, g5, g6⟩ := hg
  obtain ⟨h1, h2, _⟩ := R.transforms hL hs ht hfit hdis fun f hf => ⟨hall f (hin f hf).1, (hin f hf).2⟩
  obtain ⟨fs6, l6, m6, h3⟩ := R.offered (hall g g1) g3 g3'
  have hskip := not_skipped R.conf hno R.conf.target true
  by_cases hd : ∃ f ∈ t, ∃ q, f.kind = .direct q
  · obtain ⟨u, hu, hperm, hcomm⟩ := h2
    have := (buildTransform_adds R.stages.trans2).2.2 p ((R.conf.groupbys p).mpr hp) hskip u hu (fun _ => by
      obtain ⟨f, hf, q, hq⟩ := hd
      exact ⟨f, hperm.mem_iff.mpr hf, by unfold DFeat.isDirect; rw [hq]⟩) g (R.groups hs hno R.ok6 l6 m6 (hall g g1) g4 g5 g6)
    rw [R.conf.lang] at this
    exact ⟨u, hperm, hcomm, fun hfree => R.present hfree this⟩
  · obtain ⟨u, hu, hperm, hcomm⟩ := h1 fun f hf q hq => hd ⟨f, hf, q, hq⟩
    obtain ⟨fs3, l3, m3⟩ := h3 (hdir.resolve_left hd)
    have := (buildTransform_adds R.stages.trans).2.2 p ((R.conf.groupbys p).mpr hp) hskip u hu (fun h => by cases h) g
      (R.groups hs hno R.ok3 l3 m3 (hall g g1) g4 g5 g6)
    rw [R.conf.lang] at this
    exact ⟨u, hperm, hcomm, fun hfree => R.present hfree (R.from4 this)⟩

/-! ## Features of parents -/

/-- C61. Every feature of one output within the limit that is built for an allowed parent of the target is returned as a direct
feature, except the column that links to it. -/
theorem C61_direct_partial (hL : ∀ l, (L.setOrder l).Perm l) (hs : ∀ f ∈ a.seeds, Proper f) (hsel : a.sel = ⟨none, [], [], -1⟩) {r : List DFeat}
    (h : dfsFeatures L equalScalar ents rels a = .ok r) {q : Relationship} (hq : q ∈ rels) (hc : q.childE = a.target) (hi : q.parentE ∉ a.ignoreEntities)
    (hpath : AllowedPath a [a.target, q.parentE]) {f : DFeat} (hf : Offered L (BuiltFor L equalScalar ents rels a q.parentE) f)
    (hlink : ¬LinkColumn [q] f) (hd : ∀ n, DepChain (a.seeds.map DFeat.uname) f n → WithinLimit ents a.maxDepth n)
    (hfree : FreeName ents a (L.namer.direct q f.name)) : ∃ g ∈ r, g.name = L.namer.direct q f.name := by
  obtain ⟨S, st, d, s1, s2, s3, s4, s5, s6, s7, fs, R⟩ := dfs_ran hL hsel h
  obtain ⟨cs, hcs⟩ := R.offeredList hf
  exact R.present hfree (R.from6 (R.directs hs hq hc hi hpath hcs ((R.offered_iff hcs f).mp hf) hlink hd))

end
end FT
