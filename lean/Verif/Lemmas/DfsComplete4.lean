import Verif.Lemmas.DfsComplete3
import Verif.Lemmas.DfsProps
import Verif.Spec.DfsComplete
import Verif.Props.Dfs
namespace FT
open FT.Spec

theorem withinDepth_limit {S : Synth} {k : Int} {n : Nat} : withinDepth (effectiveDepth S k) n = true ↔ WithinLimit S.ents k n := by
  unfold effectiveDepth WithinLimit
  by_cases hk : k = -1
  · subst hk
    by_cases h1 : S.ents.length = 1
    · simp [h1, withinDepth]
      omega
    · simp [h1, withinDepth]
  · simp only [if_neg hk]
    by_cases h1 : S.ents.length = 1
    · by_cases h2 : k > 1
      · simp [h1, h2, withinDepth, hk]; omega
      · simp [h1, h2, withinDepth, hk]; omega
    · simp [h1, withinDepth, hk]

theorem withinDepth_lower {m : Option Int} {n : Nat} : withinDepth (lower1 m) n = true ↔ withinDepth m (n + 1) = true := by
  cases m with
  | none => simp [withinDepth, lower1]
  | some k => simp [withinDepth, lower1]; omega

/-- A call that returns: the visit of the target. -/
structure Ran (L : Lang) (equalScalar : Val → Prim) (ents : List DEnt) (rels : List Relationship) (a : DfsArgs) (r : List DFeat)
    (S : Synth) (st : DState) (d : DEnt) (s1 s2 s3 s4 s5 s6 s7 : DState) (fs : List DFeat) : Prop where
  conf : Configured L equalScalar ents rels a S
  paths : S.allowedPaths = a.allowedPaths
  run : configure L equalScalar ents rels a = .ok S ∧ allFeatures S a.target (effectiveDepth S a.maxDepth) = .ok st
  live : exhausted (effectiveDepth S a.maxDepth) = false
  stages : Stages S (runDfs S S.ents.length) ⟨[], []⟩ a.target [] (effectiveDepth S a.maxDepth) st d s1 s2 s3 s4 s5 s6 s7
  course : Course S ⟨[], []⟩ a.target (effectiveDepth S a.maxDepth) [] st d s1 s2 s3 s4 s5 s6 s7
  ok2 : StateOk S a.target (effectiveDepth S a.maxDepth) s2
  ok3 : StateOk S a.target (effectiveDepth S a.maxDepth) s3
  ok5 : StateOk S a.target (effectiveDepth S a.maxDepth) s5
  ok6 : StateOk S a.target (effectiveDepth S a.maxDepth) s6
  ok : StateOk S a.target (effectiveDepth S a.maxDepth) st
  final : Lists st a.target fs
  returned : ∀ f, f ∈ r ↔ f ∈ fs ∧ notTargetIndex S a.target f = true

section
variable {L : Lang} {equalScalar : Val → Prim} {ents : List DEnt} {rels : List Relationship} {a : DfsArgs} {r : List DFeat}

theorem configure_paths {S : Synth} (h : configure L equalScalar ents rels a = .ok S) : S.allowedPaths = a.allowedPaths := by
  unfold configure at h
  repeat' split at h
  all_goals first | cases h; rfl | cases h

theorem dfs_ran (hL : ∀ l, (L.setOrder l).Perm l) (hsel : a.sel = ⟨none, [], [], -1⟩) (h : dfsFeatures L equalScalar ents rels a = .ok r) :
    ∃ S st d s1 s2 s3 s4 s5 s6 s7 fs, Ran L equalScalar ents rels a r S st d s1 s2 s3 s4 s5 s6 s7 fs := by
  obtain ⟨S, st, fs, h1, h2, h3, rfl⟩ := dfs_ok h
  have hc := configure_ok h1
  have hL' : ∀ l, (S.L.setOrder l).Perm l := by rw [hc.lang]; exact hL
  have hx : exhausted (effectiveDepth S a.maxDepth) = false := by
    cases hx : exhausted (effectiveDepth S a.maxDepth) with
    | false => rfl
    | true =>
      simp only [allFeatures, runDfs, visit, if_pos hx] at h2
      cases h2
      simp at h3
  have h2' : visit S (runDfs S S.ents.length) ⟨[], []⟩ a.target [] (effectiveDepth S a.maxDepth) = .ok st := h2
  obtain ⟨d, s1, s2, s3, s4, s5, s6, s7, hs⟩ := visit_stages hx h2'
  have hm : Level S a.target (effectiveDepth S a.maxDepth) a.target (effectiveDepth S a.maxDepth) := ⟨0, .here, by cases effectiveDepth S a.maxDepth <;> simp⟩
  obtain ⟨o2, o3, o5, o6⟩ := stages_ok hL' (target := a.target) (M := effectiveDepth S a.maxDepth) hs hx ⟨by simp, by simp, by simp⟩ (by simp) (.inl rfl) hm
  refine ⟨S, st, d, s1, s2, s3, s4, s5, s6, s7, fs, hc, configure_paths h1, ⟨h1, h2⟩, hx, hs, hs.course (runDfs_ok _), o2, o3, o5, o6, allFeatures_ok hL' h2, h3, fun f => ?_⟩
  rw [hsel]
  unfold selectFeatures filterFeatures
  simp only [List.any_nil, Bool.not_false, List.contains_nil, Bool.and_self]
  rw [if_neg (by decide), List.filter_eq_self.mpr (by simp), mem_isort, List.mem_filter]

variable {S : Synth} {st : DState} {d : DEnt} {s1 s2 s3 s4 s5 s6 s7 : DState} {fs : List DFeat}

theorem Adds.lists {e : String} {K : DFeat → Prop} {x y : DState} (h : Adds S e K x y) {g : List DFeat} (hy : Lists y e g) :
    ∃ f, Lists x e f ∧ (∀ v ∈ g, v ∈ f ∨ K v) := by
  have : e ∈ x.keys := by
    have : e ∈ y.keys := mem_keys.mpr ⟨g, hy⟩
    rw [h.others.2.2] at this
    exact this
  obtain ⟨f, hf⟩ := mem_keys.mp this
  obtain ⟨f', hf', _, _, k⟩ := h.own f hf
  have : g = f' := Option.some.inj (hy.symm.trans hf')
  subst this
  exact ⟨f, hf, k⟩

theorem Frozen.lists {x y : DState} (h : Frozen x y) {e : String} (hk : e ∈ x.keys) {g : List DFeat} (hy : Lists y e g) : Lists x e g :=
  (h.feats e hk).symm.trans hy

/-- Where the features of the target come from. -/
theorem Ran.origin (R : Ran L equalScalar ents rels a r S st d s1 s2 s3 s4 s5 s6 s7 fs) :
    ∃ fs6 fs3, Lists s6 a.target fs6 ∧ Lists s3 a.target fs3 ∧ (∀ f ∈ fs, f ∈ fs6 ∨ Later f) ∧ (∀ f ∈ fs6, f ∈ fs3 ∨ IsDirect f ∨ Later f) ∧
      (∀ f ∈ fs3, Given S d f ∨ IsAggF f) ∧ ∃ fs1, Lists s1 a.target fs1 ∧ ∀ f ∈ fs3, f ∈ fs1 ∨ IsAggF f := by
  have co := R.course
  have h7 : Lists s7 a.target fs := by have := R.final; rw [co.last] at this; exact this
  obtain ⟨fs6, l6, k6⟩ := co.a7.lists h7
  obtain ⟨fs5, l5, k5⟩ := co.a6.lists l6
  have e2 : a.target ∈ s2.keys := co.v2.frozen.keys _ co.own
  have e4 : a.target ∈ s4.keys := by rw [co.a4.others.2.2, co.a3.others.2.2]; exact e2
  obtain ⟨fs3, l3, k3⟩ := co.a4.lists (co.v5.frozen.lists e4 l5)
  obtain ⟨fs2, l2, k2⟩ := co.a3.lists l3
  obtain ⟨fs0, l0, k0⟩ := co.a1.lists (co.v2.frozen.lists co.own l2)
  have : fs0 = [] := by
    have h0 : Lists { feats := (a.target, []) :: [], clauses := [] } a.target [] := by simp [Lists]
    exact Option.some.inj (l0.symm.trans h0)
  subst this
  refine ⟨fs6, fs3, l6, l3, k6, fun f hf => ?_, fun f hf => ?_, fs2, co.v2.frozen.lists co.own l2, k2⟩
  · rcases k5 f hf with h | h
    · rcases k3 f h with h | h
      · exact .inl h
      · exact .inr (.inr h)
    · exact .inr (.inl h)
  · rcases k2 f hf with h | h
    · exact .inl ((k0 f h).resolve_left (by simp))
    · exact .inr h

/-- A feature of a free name that was built is returned. -/
theorem Ran.present (R : Ran L equalScalar ents rels a r S st d s1 s2 s3 s4 s5 s6 s7 fs) {n : String} (hn : FreeName ents a n)
    (hp : Present s7 a.target (a.target ++ ": " ++ n)) : ∃ f ∈ r, f.name = n := by
  obtain ⟨fs', hfs', g, hg, hgn⟩ := hp
  have h7 : Lists s7 a.target fs := by have := R.final; rw [R.course.last] at this; exact this
  have : fs' = fs := Option.some.inj (hfs'.symm.trans h7)
  subst this
  have hent : g.entity = a.target := ((R.ok.feats _ (lookup_mem_pair R.final)).2.2 g hg).2.1
  have hname : g.name = n := by
    unfold DFeat.uname at hgn
    rw [hent] at hgn
    exact append_cancel hgn
  refine ⟨g, (R.returned g).mpr ⟨hg, ?_⟩, hname⟩
  obtain ⟨fs6, fs3, _, _, o1, o2, o3, _⟩ := R.origin
  unfold notTargetIndex
  split
  · next v t hk =>
    have hgiven : Given S d g := by
      rcases o1 g hg with h | h
      · rcases o2 g h with h | h | h
        · rcases o3 g h with h | h
          · exact h
          · obtain ⟨_, _, h⟩ := h; rw [hk] at h; cases h
        · obtain ⟨_, h⟩ := h; rw [hk] at h; cases h
        · rcases h with ⟨_, h⟩ | ⟨_, h⟩ <;> (rw [hk] at h; cases h)
      · rcases h with ⟨_, h⟩ | ⟨_, h⟩ <;> (rw [hk] at h; cases h)
    rcases hgiven with h | ⟨v', hv', rfl⟩
    · exact absurd hname (hn.2 g ((R.conf.seeds g).mp h) hent)
    · rw [R.stages.found]
      simp only [Option.any_some, Bool.not_eq_true', Bool.and_eq_false_imp, beq_iff_eq, beq_eq_false_iff_ne, ne_eq]
      intro _ hidx
      simp only [identityOf, DFeat.kind, DKind.identity.injEq] at hk
      have hf := R.stages.found
      rw [R.conf.ents] at hf
      exact hn.1 d hf v' hv' (hk.1.trans hidx.symm) hname
  · rfl

theorem Ran.target_key (R : Ran L equalScalar ents rels a r S st d s1 s2 s3 s4 s5 s6 s7 fs) : a.target ∈ s4.keys := by
  rw [R.course.a4.others.2.2, R.course.a3.others.2.2]
  exact R.course.v2.frozen.keys _ R.course.own

theorem Ran.from6 (R : Ran L equalScalar ents rels a r S st d s1 s2 s3 s4 s5 s6 s7 fs) {n : String} (hp : Present s6 a.target n) : Present s7 a.target n :=
  R.course.a7.present hp

theorem Ran.from4 (R : Ran L equalScalar ents rels a r S st d s1 s2 s3 s4 s5 s6 s7 fs) {n : String} (hp : Present s4 a.target n) : Present s7 a.target n :=
  R.from6 (R.course.a6.present (R.course.v5.frozen.present hp))

theorem Ran.from3 (R : Ran L equalScalar ents rels a r S st d s1 s2 s3 s4 s5 s6 s7 fs) {n : String} (hp : Present s3 a.target n) : Present s7 a.target n :=
  R.from4 (R.course.a4.present hp)

theorem Ran.from1 (R : Ran L equalScalar ents rels a r S st d s1 s2 s3 s4 s5 s6 s7 fs) {n : String} (hp : Present s1 a.target n) : Present s7 a.target n :=
  R.from3 (R.course.a3.present (R.course.v2.frozen.present hp))

theorem Ran.lists7 (R : Ran L equalScalar ents rels a r S st d s1 s2 s3 s4 s5 s6 s7 fs) : Lists s7 a.target fs := by
  have := R.final
  rw [R.course.last] at this
  exact this

/-- No entity is its own descendant, at least not the target. -/
theorem Ran.acyclic (R : Ran L equalScalar ents rels a r S st d s1 s2 s3 s4 s5 s6 s7 fs) :
    ∀ p x, Chain rels x a.target p → p ≠ [] → x ≠ a.target := by
  intro p x hc hp
  obtain ⟨l, hl, _⟩ := aggAll_adds R.stages.aggs
  have := (mem_deepBackward _ _ l hl x (bwd p.reverse)).mpr ⟨p, rfl, hp, by rw [R.conf.rels]; exact hc⟩
  exact not_cycle hl _ this

/-- The descendants that are sure to be visited. -/
theorem Ran.below (R : Ran L equalScalar ents rels a r S st d s1 s2 s3 s4 s5 s6 s7 fs) {c : String} {chain : List Relationship}
    (hch : Chain rels c a.target chain) (hne : chain ≠ []) (hsure : SureBelow a c chain) (hk : ∃ dc, ents.find? (fun d => d.id == c) = some dc) :
    c ∈ s2.keys ∧ c ≠ a.target ∧ c ∉ a.ignoreEntities ∧ allowedVia S [] (c, bwd chain.reverse) = true := by
  have hce : c ≠ a.target := R.acyclic _ _ hch hne
  have hign : ∀ e, e ∉ a.ignoreEntities → e ∉ S.ignoreEnts := fun e he h => he ((R.conf.ents_ignored e).mp h).1
  have hlen : ents.length ≠ 1 := by
    intro h1
    obtain ⟨dc, hdc⟩ := hk
    have hf := R.stages.found
    rw [R.conf.ents] at hf
    match ents, h1, hdc, hf with
    | [x], _, hdc, hf =>
      have e1 : x.id = c := by
        rw [List.find?_cons] at hdc
        split at hdc
        · next h => simpa using h
        · cases hdc
      have e2 : x.id = a.target := by
        rw [List.find?_cons] at hf
        split at hf
        · next h => simpa using h
        · cases hf
      exact hce (e1.symm.trans e2)
  have hk1 : ∀ x, x ∈ s1.keys ↔ x = a.target := by
    intro x; rw [R.course.a1.others.2.2]; simp [DState.keys]
  rcases hsure with ⟨hm, hpaths, hi⟩ | ⟨h1, hm, hi, hpath⟩
  · have heff : effectiveDepth S a.maxDepth = none := by
      unfold effectiveDepth
      rw [R.conf.ents]
      simp [hm, hlen]
    have hap : S.allowedPaths = [] := R.paths.trans hpaths
    have hb := R.stages.backward
    rw [heff] at hb
    have hci : c ∉ a.ignoreEntities := by
      match chain, hne, hch, hi with
      | q :: _, _, hch, hi => exact hch.2.1 ▸ hi q List.mem_cons_self
    refine ⟨?_, hce, hci, allowedVia_open hap (hign _ hci)⟩
    refine reached_below hk1 (visitAll_closed (runDfs_ok _) (runDfs_closed hap _) hb) (fun q hq hp hi' => ?_) (by rw [R.conf.rels]; exact R.acyclic) chain c hne
      (by rw [R.conf.rels]; exact hch) (fun q hq => hign _ (hi q hq))
    exact R.course.k2 (by rw [heff]; rfl) (q.childE, [(false, q)]) (List.mem_map.mpr ⟨q, mem_getBackward.mpr ⟨hq, hp⟩, rfl⟩) (allowedVia_open hap hi')
  · match chain, h1, hch with
    | [q], _, hch =>
      obtain ⟨hq, rfl, hqt⟩ := hch
      have hqt : q.parentE = a.target := hqt
      have hav : allowedVia S [] (q.childE, [(false, q)]) = true := by
        unfold allowedVia
        simp only [Bool.and_eq_true, Bool.not_eq_true', Bool.or_eq_true]
        refine ⟨by simpa using hign _ hi, ?_⟩
        rw [R.paths]
        rcases hpath with h | h
        · left; simp [h]
        · right
          simpa [pathEntities, hqt] using h
      refine ⟨?_, hce, hi, hav⟩
      refine R.course.k2 ?_ (q.childE, [(false, q)]) (List.mem_map.mpr ⟨q, mem_getBackward.mpr ⟨by rw [R.conf.rels]; exact hq, hqt⟩, rfl⟩) hav
      have hlive := R.live
      unfold effectiveDepth at hlive ⊢
      rw [R.conf.ents] at hlive ⊢
      by_cases hmm : a.maxDepth = -1
      · simp [hmm, hlen, lower1, exhausted]
      · simp [hmm, hlen, exhausted, lower1] at hlive ⊢
        omega

theorem depth_limit (hc : Configured L equalScalar ents rels a S) {f : DFeat} (hp : Proper f) {k : Nat}
    (h : ∀ n, DepChain (a.seeds.map DFeat.uname) f n → WithinLimit ents a.maxDepth (n + k)) :
    WithinLimit S.ents a.maxDepth (f.depth (S.seeds.map DFeat.uname) + k) := by
  rw [hc.ents]
  refine h _ ?_
  have := depth_chain (stop := S.seeds.map DFeat.uname) _ rfl hp
  generalize f.depth (S.seeds.map DFeat.uname) = n at this
  clear hp h
  induction this with
  | nil => exact .nil _
  | cons h1 h2 h3 _ ih =>
    refine .cons h1 (fun hm => h2 ?_) h3 ih
    obtain ⟨g, hg, e⟩ := List.mem_map.mp hm
    exact List.mem_map.mpr ⟨g, (hc.seeds g).mpr hg, e⟩

theorem opts_single (hc : Configured L equalScalar ents rels a S) {p : Prim} (hno : NoOptions a.options p) :
    S.opts p = [{ ignoreEntities := a.ignoreEntities, ignoreVars := a.ignoreVariables }] := by
  rw [hc.opts]
  unfold optionsFor
  rw [userOptions_none.mpr hno]

theorem nothingIgnored_filter {p : Prim} {f : DFeat} (h : NothingIgnored a p f) (sub : String → String → Bool) :
    variableFilter sub f { ignoreEntities := a.ignoreEntities, ignoreVars := a.ignoreVariables } false = true := by
  rw [variableFilter_iff]
  intro g hg
  obtain ⟨h1, h2⟩ := h.2 g hg
  refine ⟨fun _ l hl => (by cases hl), fun hi _ => ⟨fun l hl => h2 hi l hl, ⟨fun l hl => (by cases hl), fun l hl => ?_⟩⟩, fun _ => ⟨fun l hl => (by cases hl), fun l hl => ?_⟩⟩
  · cases hl; exact h1
  · cases hl; exact h1

theorem not_skipped (hc : Configured L equalScalar ents rels a S) {p : Prim} (hno : NoOptions a.options p) {c : String} (hi : c ∉ a.ignoreEntities) (g : Bool) :
    ignoreEntityFor (S.opts p) c g = false := by
  rw [opts_single hc hno]
  have hnp : ¬¬EntityPermitted none (some a.ignoreEntities) c := fun h => h ⟨fun l hl => (by cases hl), fun l hl => (by cases hl; exact hi)⟩
  cases g with
  | false =>
    rw [← Bool.not_eq_true, (C46_skipped_entities _ c).1]
    rintro ⟨o, ho, _, h⟩
    simp only [List.mem_singleton] at ho
    subst ho
    exact hnp h
  | true =>
    rw [← Bool.not_eq_true, (C46_skipped_entities _ c).2]
    rintro ⟨o, ho, h⟩
    simp only [List.mem_singleton] at ho
    subst ho
    rcases h with ⟨_, h⟩ | ⟨_, h⟩
    · exact h ⟨fun l hl => (by cases hl), fun l hl => (by cases hl)⟩
    · exact hnp h

theorem inRelPath_iff {p : RelPath} {f : DFeat} : inRelPath p f = true ↔ LinkColumn (p.map Prod.snd) f := by
  unfold inRelPath LinkColumn
  split
  · next v t hk =>
    simp only [List.any_eq_true, Bool.or_eq_true, Bool.and_eq_true, beq_iff_eq]
    constructor
    · rintro ⟨⟨b, q⟩, hq, h⟩
      exact ⟨q, List.mem_map.mpr ⟨(b, q), hq, rfl⟩, v, t, hk, h⟩
    · rintro ⟨q, hq, v', t', hk', h⟩
      obtain ⟨⟨b, q'⟩, hq', rfl⟩ := List.mem_map.mp hq
      rw [hk] at hk'
      cases hk'
      exact ⟨(b, q'), hq', h⟩
  · next h =>
    simp only [Bool.false_eq_true, false_iff]
    rintro ⟨_, _, v, t, hk, _⟩
    exact h v t hk

end
end FT
