import Verif.Lemmas.DfsMatrix
import Verif.Lemmas.DfsCall
import Verif.Lemmas.Build
/-! # Features of the synthesis, read by the calculator -/
namespace FT
open Spec

section
variable {R : Reading} {L : Lang} {rels : List Relationship}

theorem readFeats_eq : ∀ fs : List DFeat, readFeats R L rels fs = fs.map (readFeat R L rels)
  | [] => rfl
  | f :: fs => by rw [readFeats, readFeats_eq fs]; rfl

theorem read_entity (f : DFeat) : (readFeat R L rels f).entity = f.entity := by obtain ⟨k, e, n, b, w⟩ := f; rfl
theorem read_name (f : DFeat) : (readFeat R L rels f).name = f.name := by obtain ⟨k, e, n, b, w⟩ := f; rfl
theorem read_names (f : DFeat) : (readFeat R L rels f).names = readNames L f := by obtain ⟨k, e, n, b, w⟩ := f; rfl
theorem read_kind (f : DFeat) : (readFeat R L rels f).kind = readKind R rels f.entity f.kind := by obtain ⟨k, e, n, b, w⟩ := f; rfl
theorem read_bases (f : DFeat) : (readFeat R L rels f).bases = f.bases.map (readFeat R L rels) := by
  obtain ⟨k, e, n, b, w⟩ := f; exact readFeats_eq b
theorem read_wh (f : DFeat) : (readFeat R L rels f).wh = f.wh.map (readFeat R L rels) := by
  obtain ⟨k, e, n, b, w⟩ := f; exact readFeats_eq w

theorem readNames_length (f : DFeat) : (readNames L f).length = f.outputs := by
  unfold readNames; split <;> simp_all

theorem readNames_nodup (hs : ∀ f i j, L.namer.slice f i = L.namer.slice f j → i = j) (f : DFeat) : (readNames L f).Nodup := by
  unfold readNames
  split
  · simp
  · exact List.pairwise_map.mpr (List.nodup_range.imp fun h e => h (hs f _ _ e))

theorem read_single {f : DFeat} (h : f.outputs = 1) : SingleOutput (readFeat R L rels f) := by
  unfold SingleOutput
  rw [read_names, read_name, readNames, if_pos h]

end

/-- Built, or a condition on something built. -/
def BuiltBy (S : Synth) (target : String) (M : Option Int) (f : DFeat) : Prop :=
  Built S target M f ∨ ∃ g x v, Built S target M g ∧ varOf g = some x ∧ f = clauseOf S g v

theorem pathDown_first {a b : String} {path : List Relationship} (h : PathDown a path b) : ∃ r rs, path = r :: rs ∧ r.parentE = a := by
  cases h with
  | last r => exact ⟨r, [], rfl, rfl⟩
  | step r => exact ⟨r, _, rfl, rfl⟩

theorem pathDown_tail {a b : String} {path : List Relationship} (h : PathDown a path b) : ∀ r ∈ path.tail, ∃ s ∈ path, s.childE = r.parentE := by
  induction h with
  | last r => simp
  | @step r rs e h ih =>
    intro x hx
    simp only [List.tail_cons] at hx
    obtain ⟨r', rs', rfl, he⟩ := pathDown_first h
    rcases List.mem_cons.mp hx with rfl | hx
    · exact ⟨r, by simp, he.symm⟩
    · obtain ⟨s, hs, h1⟩ := ih x (by simpa using hx)
      exact ⟨s, by simp [List.mem_cons.mp hs], h1⟩

theorem pathDown_last {a b : String} {path : List Relationship} (h : PathDown a path b) : ∃ r ∈ path, r.childE = b := by
  induction h with
  | last r => exact ⟨r, by simp, rfl⟩
  | step r _ ih => obtain ⟨s, hs, h⟩ := ih; exact ⟨s, by simp [hs], h⟩

section
variable {S : Synth} {target : String} {M : Option Int}

theorem BuiltBy.dep {f d : DFeat} (h : BuiltBy S target M f) (hd : d ∈ f.bases ∨ d ∈ f.wh) : f ∈ S.seeds ∨ BuiltBy S target M d := by
  by_cases hs : f ∈ S.seeds
  · exact .inl hs
  refine .inr ?_
  rcases h with h | ⟨g, x, v, hg, hx, rfl⟩
  · cases h with
    | identity => simp [identityOf, DFeat.bases, DFeat.wh] at hd
    | seed _ hf => exact absurd hf hs
    | slice f i hf => simp [sliceOf, DFeat.bases, DFeat.wh] at hd; exact .inl (hd ▸ hf)
    | trans e n p t _ _ _ hb => simp [DFeat.bases, DFeat.wh] at hd; exact .inl (hb _ hd)
    | groupby e n p t g _ _ _ hb hg =>
      simp [DFeat.bases, DFeat.wh] at hd
      rcases hd with hd | hd
      · exact .inl (hb _ hd)
      · exact .inl (hd ▸ hg)
    | agg e c n path p t _ _ _ _ _ _ hb => simp [DFeat.bases, DFeat.wh] at hd; exact .inl (hb _ hd)
    | aggWhere e c n path p t w f x v _ _ _ _ _ _ hb _ _ _ _ _ hf hx _ hw =>
      simp [DFeat.bases, DFeat.wh] at hd
      rcases hd with hd | hd
      · exact .inl (hb _ hd)
      · exact .inr ⟨f, x, v, hf, hx, hd.trans hw⟩
    | direct r f _ hf => simp [mkDirect, DFeat.bases, DFeat.wh] at hd; exact .inl (hd ▸ hf)
  · simp [clauseOf, DFeat.bases, DFeat.wh] at hd
    exact .inl (hd ▸ hg)

theorem known_uses {R : Reading} {L : Lang} {rels : List Relationship} {a g : Feat} (hu : Uses [] a g) :
    ∀ f, a = readFeat R L rels f → BuiltBy S target M f →
      NeededBy (S.seeds.map (readFeat R L rels)) g ∨ ∃ f', BuiltBy S target M f' ∧ g = readFeat R L rels f' := by
  have step : ∀ {f : DFeat} {d : Feat}, BuiltBy S target M f → d ∈ (readFeat R L rels f).bases ∨ d ∈ (readFeat R L rels f).wh →
      f ∈ S.seeds ∨ ∃ f', BuiltBy S target M f' ∧ d = readFeat R L rels f' := by
    intro f d hf hd
    rw [read_bases, read_wh] at hd
    rcases hd with hd | hd
    · obtain ⟨f', h1, rfl⟩ := List.mem_map.mp hd
      exact (hf.dep (.inl h1)).imp id fun h => ⟨f', h, rfl⟩
    · obtain ⟨f', h1, rfl⟩ := List.mem_map.mp hd
      exact (hf.dep (.inr h1)).imp id fun h => ⟨f', h, rfl⟩
  induction hu with
  | direct hd hn =>
    rintro f rfl hf
    exact (step hf hd).imp (fun hs => ⟨_, List.mem_map_of_mem hs, .inr (.direct hd hn)⟩) id
  | deep hd hn hu ih =>
    rintro f rfl hf
    rcases step hf hd with hs | ⟨f', h1, h2⟩
    · exact .inl ⟨_, List.mem_map_of_mem hs, .inr (.deep hd hn hu)⟩
    · exact ih f' h2 h1

theorem known_needed {R : Reading} {L : Lang} {rels : List Relationship} {r : List DFeat} (hr : ∀ f ∈ r, Built S target M f) {g : Feat}
    (h : NeededBy (r.map (readFeat R L rels)) g) :
    NeededBy (S.seeds.map (readFeat R L rels)) g ∨ ∃ f, BuiltBy S target M f ∧ g = readFeat R L rels f := by
  obtain ⟨a, ha, hn⟩ := h
  obtain ⟨f, hf, rfl⟩ := List.mem_map.mp ha
  rcases hn with rfl | hu
  · exact .inr ⟨f, .inl (hr f hf), rfl⟩
  · exact known_uses hu f rfl (.inl (hr f hf))

/-- A variable, or one brought down, is one column. -/
theorem varOf_outputs : ∀ (f : DFeat) (x : String × String), varOf f = some x → f.outputs = 1
  | .mk (.identity ..) .., _, _ => rfl
  | .mk (.direct _) _ _ (b :: _) _, x, h => by
    simp only [varOf] at h
    simpa [DFeat.outputs] using varOf_outputs b x h
  | .mk (.direct _) _ _ [] _, _, h => by simp [varOf] at h
  | .mk (.agg ..) .., _, h => by simp [varOf] at h
  | .mk (.trans _) .., _, h => by simp [varOf] at h
  | .mk (.groupby _) .., _, h => by simp [varOf] at h
  | .mk (.slice _) .., _, _ => rfl

/-- The path of an aggregation. -/
theorem agg_path {e c : String} {path : RelPath} (h : (c, path) ∈ (deepBackwardEntities S.rels (S.rels.length + 1) e).getD []) :
    (path.map Prod.snd).map (fun r => (false, r)) = path ∧ PathDown e (path.map Prod.snd) c ∧ ∀ r ∈ path.map Prod.snd, r ∈ S.rels := by
  cases hd : deepBackwardEntities S.rels (S.rels.length + 1) e with
  | none => rw [hd] at h; cases h
  | some l =>
    rw [hd] at h
    obtain ⟨p, rfl, hne, hc⟩ := (mem_deepBackward _ _ l hd c path).mp h
    have hmap : (bwd p.reverse).map Prod.snd = p.reverse := by simp [bwd, List.map_map, Function.comp_def]
    rw [hmap]
    exact ⟨rfl, pathDown_of_chain hne hc, fun r hr => chain_mem hc r (by simpa using hr)⟩

variable {env : Env} {L : Lang} {R : Reading} {a : DfsArgs} {equalScalar : Val → Prim}

/-- What the entity and the outputs of built features are. -/
theorem built_basics (hD : DataFor env S.ents) (hrels : S.rels = env.rels) (hseeds : SeedsComputable L env (S.seeds.map (readFeat R L env.rels)))
    (hagg : ∀ p ∈ S.aggs, 0 < p.outputs) (htrans : ∀ p, p ∈ S.trans ∨ p ∈ S.groupbys → 0 < p.outputs) {f : DFeat} (h : Built S target M f) :
    EntityOk env f.entity ∧ 1 ≤ f.outputs ∧ (∀ x, varOf f = some x → f.outputs = 1) := by
  have hrel : ∀ r ∈ S.rels, RelOk env r := fun r hr => hD.related r (hrels ▸ hr)
  induction h with
  | identity d v hd => exact ⟨hD.entity d hd, Nat.le_refl 1, fun _ _ => rfl⟩
  | seed f hf =>
    obtain ⟨⟨h1, _, h3, _⟩, _⟩ := hseeds.wellFormed _ ⟨_, List.mem_map_of_mem hf, .inl rfl⟩
    rw [read_entity] at h3
    refine ⟨h3, ?_, varOf_outputs f⟩
    rw [read_names] at h1
    rw [← readNames_length (L := L) f]
    exact List.length_pos_iff.mpr h1
  | slice f i _ _ _ ih => exact ⟨ih.1, Nat.le_refl 1, fun _ _ => rfl⟩
  | trans e n p t hp _ _ _ hin _ _ ih =>
    refine ⟨?_, htrans p (.inl hp), fun x hx => by simp [varOf] at hx⟩
    obtain ⟨f, hf⟩ := List.exists_mem_of_ne_nil _ hin.nonempty
    have := (ih f hf).1
    rwa [hin.entity f hf] at this
  | groupby e n p t g hp _ _ _ _ _ hge _ _ _ _ _ _ _ _ _ ih2 =>
    exact ⟨hge ▸ ih2.1, htrans p (.inr hp), fun x hx => by simp [varOf] at hx⟩
  | agg e c n path p t hp _ _ _ _ hpath =>
    refine ⟨?_, hagg p hp, fun x hx => by simp [varOf] at hx⟩
    obtain ⟨_, h2, h3⟩ := agg_path hpath
    obtain ⟨r, rs, he, rfl⟩ := pathDown_first h2
    exact (hrel r (h3 r (by rw [he]; simp))).parent
  | aggWhere e c n path p t w f x v hp _ _ _ _ hpath =>
    refine ⟨?_, hagg p hp, fun x hx => by simp [varOf] at hx⟩
    obtain ⟨_, h2, h3⟩ := agg_path hpath
    obtain ⟨r, rs, he, rfl⟩ := pathDown_first h2
    exact (hrel r (h3 r (by rw [he]; simp))).parent
  | direct r f hr _ _ _ _ _ _ _ ih =>
    exact ⟨(hrel r hr).child, ih.2.1, fun x hx => ih.2.2 x (by simpa [mkDirect, varOf] using hx)⟩

theorem stackOk_single {p : Prim} {t : List DFeat} (h : stackOk p t = .ok true) : ∀ f ∈ t, f.outputs ≤ 1 := by
  intro f hf
  unfold stackOk at h
  split at h
  · cases h
  · split at h
    · cases h
    · split at h
      · cases h
      · next hn => 
        simp only [List.any_eq_true, decide_eq_true_eq, not_exists, not_and] at hn
        exact Nat.le_of_not_lt (hn f hf)

/-- Everything needed for built features is well-formed. -/
theorem known_wf (hL : S.L = L) (heq : S.equalScalar = equalScalar) (hD : DataFor env S.ents) (hrels : S.rels = env.rels) (hseeds : SeedsComputable L env (S.seeds.map (readFeat R L env.rels)))
    (hP : PrimsOk L equalScalar R a) (hagg : ∀ p, p ∈ S.aggs → p ∈ a.aggs) (htrans : ∀ p, p ∈ S.trans → p ∈ a.trans)
    (hgroup : ∀ p, p ∈ S.groupbys → p ∈ a.groupbys) {f : DFeat} (h : BuiltBy S target M f)
    (hslice : ∀ p, ((readFeat R L env.rels f).kind = .trans p ∨ (readFeat R L env.rels f).kind = .groupby p) →
      ∀ d ∈ (readFeat R L env.rels f).bases, ∀ n, d.kind = .slice n → d.path = [])
    (hcond : 1 < (readFeat R L env.rels f).bases.length → ∀ w ∈ (readFeat R L env.rels f).wh, ∀ b ∈ (readFeat R L env.rels f).bases, b.name ≠ w.name) :
    WellFormed env (readFeat R L env.rels f) ∧ (∀ x ∈ (readFeat R L env.rels f).path, x.2 ∈ env.rels) := by
  have basics {g : DFeat} (hg : Built S target M g) := built_basics hD hrels hseeds (fun p hp => (hP.agg p (hagg p hp)).1)
    (fun p hp => (hP.trans p (hp.elim (fun h => .inl (htrans p h)) fun h => .inr (.inl (hgroup p h)))).1) hg
  have hrel : ∀ r ∈ S.rels, RelOk env r := fun r hr => hD.related r (hrels ▸ hr)
  have hone : ∀ {g : DFeat}, Built S target M g → g.outputs ≤ 1 → g.outputs = 1 := fun hg h => Nat.le_antisymm h (basics hg).2.1
  have single : ∀ {t : List DFeat}, (∀ g ∈ t, g.outputs = 1) → ∀ d ∈ t.map (readFeat R L env.rels), SingleOutput d := by
    intro t ht d hd
    obtain ⟨g, hg, rfl⟩ := List.mem_map.mp hd
    exact read_single (ht g hg)
  have bottom : ∀ {f : DFeat}, EntityOk env f.entity → 1 ≤ f.outputs → (readFeat R L env.rels f).names ≠ [] ∧ (readFeat R L env.rels f).names.Nodup ∧
      EntityOk env (readFeat R L env.rels f).entity := by
    intro f he ho
    refine ⟨?_, ?_, by rw [read_entity]; exact he⟩
    · rw [read_names]
      intro h
      have := readNames_length (L := L) f
      rw [h] at this; simp at this; omega
    · rw [read_names]; exact readNames_nodup hP.slices f
  have nlen : ∀ f : DFeat, (readFeat R L env.rels f).names.length = f.outputs := fun f => by rw [read_names, readNames_length]
  -- aggregations
  have aggOk : ∀ {e c n : String} {path : RelPath} {p : Prim} {t w : List DFeat}, f = .mk (.agg path p) e n t w → EntityOk env e → p ∈ S.aggs →
      (c, path) ∈ (deepBackwardEntities S.rels (S.rels.length + 1) e).getD [] → (∀ f ∈ t, Built S target M f) → (∀ f ∈ t, f.entity = c) → t ≠ [] →
      stackOk p t = .ok true → w.length ≤ 1 → (∀ x ∈ w, x.entity = c ∧ x.outputs = 1) →
      WellFormed env (readFeat R L env.rels f) ∧ (∀ x ∈ (readFeat R L env.rels f).path, x.2 ∈ env.rels) := by
    intro e c n path p t w hf he hp hpath hb hte hne hst hwl hw
    obtain ⟨h1, h2, h3⟩ := agg_path hpath
    have ho : f.outputs = p.outputs := by rw [hf]; rfl
    have hk : (readFeat R L env.rels f).kind = .agg (path.map Prod.snd) (R.agg p) none (readUnique env.rels e path) := by rw [hf]; rfl
    have hbs : (readFeat R L env.rels f).bases = t.map (readFeat R L env.rels) := by rw [read_bases, hf]; rfl
    have hws : (readFeat R L env.rels f).wh = w.map (readFeat R L env.rels) := by rw [read_wh, hf]; rfl
    obtain ⟨b1, b2, b3⟩ := bottom (f := f) (by rw [hf]; exact he) (by rw [ho]; exact (hP.agg p (hagg p hp)).1)
    refine ⟨⟨b1, b2, b3, ?_⟩, ?_⟩
    · simp only [hk]
      refine ⟨fun r hr => hrel r (h3 r hr), fun r hr => ?_, ?_, ?_, ⟨c, ?_, ?_⟩, ?_, ?_, ?_⟩
      · obtain ⟨s, hs, hs1⟩ := pathDown_tail h2 r hr
        exact hD.oneLink r (hrels ▸ h3 r (List.mem_of_mem_tail hr)) s (hrels ▸ h3 s hs) hs1
      · rw [hbs]; simpa using hne
      · rw [hws]; simpa using hwl
      · rw [read_entity, hf]; exact h2
      · rw [hbs, hws]
        rintro d (hd | hd)
        · obtain ⟨g, hg, rfl⟩ := List.mem_map.mp hd
          exact ⟨by rw [read_entity]; exact hte g hg, read_single (hone (hb g hg) (stackOk_single hst g hg))⟩
        · obtain ⟨g, hg, rfl⟩ := List.mem_map.mp hd
          exact ⟨by rw [read_entity]; exact (hw g hg).1, read_single (hw g hg).2⟩
      · intro times ht; cases ht
      · rcases Nat.lt_or_ge 1 (readFeat R L env.rels f).bases.length with hl | hl
        · exact .inr (hcond hl)
        · refine .inl (Nat.le_antisymm hl ?_)
          rw [hbs, List.length_map]
          exact List.length_pos_iff.mpr hne
      · intro t' args; rw [nlen, ho]; exact (hP.agg p (hagg p hp)).2 t' args
    · intro x hx
      rw [path_agg hk] at hx
      obtain ⟨r, hr, rfl⟩ := List.mem_map.mp hx
      exact hrels ▸ h3 r hr
  -- transforms
  have transOk : ∀ {k : DKind} {e n : String} {p : Prim} {t : List DFeat}, f = .mk k e n t [] → (k = .trans p ∧ t ≠ [] ∨ k = .groupby p ∧ t.dropLast ≠ []) →
      EntityOk env e → (p ∈ a.trans ∨ p ∈ a.groupbys ∨ ∃ v, p = equalScalar v) → (∀ f ∈ t, f.entity = e) → (∀ f ∈ t, f.outputs = 1) →
      WellFormed env (readFeat R L env.rels f) ∧ (∀ x ∈ (readFeat R L env.rels f).path, x.2 ∈ env.rels) := by
    intro k e n p t hf hk he hp hte ho1
    obtain ⟨q1, q2, q3⟩ := hP.trans p hp
    have ho : f.outputs = p.outputs := by rw [hf]; rcases hk with ⟨rfl, _⟩ | ⟨rfl, _⟩ <;> rfl
    obtain ⟨b1, b2, b3⟩ := bottom (f := f) (by rw [hf]; exact he) (by rw [ho]; exact q1)
    have hbs : (readFeat R L env.rels f).bases = t.map (readFeat R L env.rels) := by rw [read_bases, hf]; rfl
    have hws : (readFeat R L env.rels f).wh = [] := by rw [read_wh, hf]; rfl
    have hde : ∀ p', ((readFeat R L env.rels f).kind = .trans p' ∨ (readFeat R L env.rels f).kind = .groupby p') → ∀ d ∈ (readFeat R L env.rels f).bases,
        d.entity = (readFeat R L env.rels f).entity ∧ SingleOutput d ∧ ∀ n, d.kind = .slice n → d.path = [] := by
      intro p' hk' d hd
      refine ⟨?_, ?_, hslice p' hk' d hd⟩
      · rw [hbs] at hd
        obtain ⟨g, hg, rfl⟩ := List.mem_map.mp hd
        rw [read_entity, read_entity, hte g hg, hf]; rfl
      · rw [hbs] at hd
        exact single ho1 d hd
    rcases hk with ⟨rfl, hne⟩ | ⟨rfl, hne⟩
    · have hk : (readFeat R L env.rels f).kind = .trans (R.trans p) := by rw [hf]; rfl
      refine ⟨⟨b1, b2, b3, ?_⟩, by rw [path_trans hk]; simp⟩
      have hde := hde _ (.inl hk)
      simp only [hk]
      rw [nlen, ho]
      exact ⟨by rw [hbs]; simpa using hne, hws, hde, q2, q3⟩
    · have hk : (readFeat R L env.rels f).kind = .groupby (R.trans p) := by rw [hf]; rfl
      refine ⟨⟨b1, b2, b3, ?_⟩, by rw [path_groupby hk]; simp⟩
      have hde := hde _ (.inr hk)
      simp only [hk]
      rw [nlen, ho]
      refine ⟨?_, hws, hde, q2, q3⟩
      rw [hbs, ← List.map_dropLast]
      exact fun h => hne (List.map_eq_nil_iff.mp h)
  rcases h with h | ⟨g, x, v, hg, hx, rfl⟩
  · have hb := basics h
    cases h with
    | identity d v hd hv =>
      have hk : (readFeat R L env.rels (identityOf d v)).kind = .identity v.id := rfl
      obtain ⟨b1, b2, b3⟩ := bottom hb.1 hb.2.1
      refine ⟨⟨b1, b2, b3, ?_⟩, by rw [path_identity hk]; simp⟩
      simp only [hk]
      have hc := hD.column d hd v hv
      exact ⟨hc.1, read_single rfl, rfl, rfl, hc.2⟩
    | seed _ hf => exact hseeds.wellFormed _ ⟨_, List.mem_map_of_mem hf, .inl rfl⟩
    | slice f i hf ho hi =>
      have hk : (readFeat R L env.rels (sliceOf S f i)).kind = .slice i := rfl
      obtain ⟨b1, b2, b3⟩ := bottom hb.1 hb.2.1
      have hns : ∀ m, (readFeat R L env.rels f).kind ≠ .slice m := by
        intro m hm
        rw [read_kind] at hm
        obtain ⟨k, e, n, b, w⟩ := f
        cases k <;> simp [readKind, DFeat.kind] at hm
        simp [DFeat.outputs] at ho
      refine ⟨⟨b1, b2, b3, ?_⟩, ?_⟩
      · simp only [hk]
        refine ⟨read_single rfl, rfl, readFeat R L env.rels f, rfl, by rw [read_entity]; rfl, ?_, hns⟩
        rw [read_names, readNames, if_neg (by omega), List.getElem?_map, List.getElem?_range hi]
        simp only [Option.map_some]
        rw [← hL]; rfl
      · have hp : (readFeat R L env.rels (sliceOf S f i)).path = (readFeat R L env.rels f).kind.path := by
          unfold Feat.path
          rw [hk]
          rfl
        rw [hp]
        -- the path of the whole feature
        have hfk : ∀ x ∈ (readFeat R L env.rels f).kind.path, x.2 ∈ env.rels := by
          by_cases hfs : f ∈ S.seeds
          · have hpath : (readFeat R L env.rels f).path = (readFeat R L env.rels f).kind.path := by
              unfold Feat.path
              split
              · next h _ => exact absurd h (hns _)
              · rfl
            rw [← hpath]
            exact (hseeds.wellFormed _ ⟨_, List.mem_map_of_mem hfs, .inl rfl⟩).2
          rw [read_kind]
          cases hf with
          | identity => simp [identityOf, readKind, DFeat.kind, Kind.path]
          | seed _ hf => exact absurd hf hfs
          | slice => simp [sliceOf, readKind, DFeat.kind, Kind.path]
          | trans => simp [readKind, DFeat.kind, Kind.path]
          | groupby => simp [readKind, DFeat.kind, Kind.path]
          | agg e c n path p t _ _ _ _ _ hpath =>
            intro x hx
            simp only [readKind, DFeat.kind, Kind.path] at hx
            obtain ⟨r, hr, rfl⟩ := List.mem_map.mp hx
            exact hrels ▸ (agg_path hpath).2.2 r hr
          | aggWhere e c n path p t w f x v _ _ _ _ _ hpath =>
            intro x hx
            simp only [readKind, DFeat.kind, Kind.path] at hx
            obtain ⟨r, hr, rfl⟩ := List.mem_map.mp hx
            exact hrels ▸ (agg_path hpath).2.2 r hr
          | direct r f hr =>
            intro x hx
            simp only [mkDirect, readKind, DFeat.kind, Kind.path, List.mem_singleton] at hx
            subst hx
            exact hrels ▸ hr
        exact hfk
    | trans e n p t hp _ _ hbt hin ho1 =>
      exact transOk rfl (.inl ⟨rfl, hin.nonempty⟩) hb.1 (.inl (htrans p hp)) hin.entity ho1
    | groupby e n p t g hp _ _ hbt hg hte hge _ _ _ ho1 _ _ hne hg1 =>
      refine transOk rfl (.inr ⟨rfl, by simpa using hne⟩) hb.1 (.inr (.inl (hgroup p hp))) ?_ ?_
      · intro f hf
        rcases List.mem_append.mp hf with hf | hf
        · exact hte f hf
        · simp only [List.mem_singleton] at hf; subst hf; exact hge
      · intro f hf
        rcases List.mem_append.mp hf with hf | hf
        · exact ho1 f hf
        · simp only [List.mem_singleton] at hf; subst hf; exact hone hg hg1
    | agg e c n path p t hp _ _ _ _ hpath hbt hin _ hst =>
      exact aggOk rfl hb.1 hp hpath hbt hin.entity hin.nonempty hst (by simp) (by simp)
    | aggWhere e c n path p t w f x v hp _ _ _ _ hpath hbt hin _ hst _ _ hf hx _ hw hfe =>
      refine aggOk rfl hb.1 hp hpath hbt hin.entity hin.nonempty hst (by simp) fun y hy => ?_
      simp only [List.mem_singleton] at hy
      subst hy
      rw [hw]
      refine ⟨hfe, ?_⟩
      show (S.equalScalar v).outputs = 1
      rw [heq]; exact hP.scalar v
    | direct r f hr hf hfe _ _ _ _ ho =>
      have hk : (readFeat R L env.rels (mkDirect S r f)).kind = .direct r := rfl
      obtain ⟨b1, b2, b3⟩ := bottom hb.1 hb.2.1
      refine ⟨⟨b1, b2, b3, ?_⟩, ?_⟩
      · simp only [hk]
        refine ⟨hrel r hr, rfl, rfl, readFeat R L env.rels f, rfl, by rw [read_entity]; exact hfe, ?_⟩
        rw [nlen, nlen]; rfl
      · rw [path_direct hk]
        intro x hx
        simp only [List.mem_singleton] at hx
        subst hx
        exact hrels ▸ hr
  · have hb := basics hg
    refine transOk rfl (.inl ⟨rfl, by simp⟩) hb.1 (.inr (.inr ⟨v, by rw [heq]⟩)) (by simp) ?_
    intro y hy
    simp only [List.mem_singleton] at hy
    subst hy
    exact hb.2.2 x hx

end

end FT
