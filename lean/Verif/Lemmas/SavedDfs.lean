import Verif.Model.SavedDfs
import Verif.Spec.SavedDfs
import Verif.Lemmas.FeatureFile
import Verif.Lemmas.DfsRead
import Verif.Lemmas.Pipeline
namespace FT
open Spec

theorem storedFeats_map (P : Prim → PInst) : ∀ fs : List DFeat, storedFeats P fs = fs.map (storedFeat P)
  | [] => rfl
  | f :: fs => by simp [storedFeats, storedFeats_map P fs]

theorem loadedFeats_map (Q : PInst → Prim) (ents : List DEnt) : ∀ fs : List SFeat, loadedFeats Q ents fs = fs.map (loadedFeat Q ents)
  | [] => rfl
  | f :: fs => by simp [loadedFeats, loadedFeats_map Q ents fs]

section
variable {P : Prim → PInst}

theorem stored_entity (f : DFeat) : (storedFeat P f).entity = f.entity := by cases f; rfl
theorem stored_name (f : DFeat) : (storedFeat P f).name = f.name := by cases f; rfl
theorem stored_kind (f : DFeat) : (storedFeat P f).kind = storedKind P f.kind := by cases f; rfl
theorem stored_bases (f : DFeat) : (storedFeat P f).bases = f.bases.map (storedFeat P) := by cases f; simp [storedFeat, SFeat.bases, DFeat.bases, storedFeats_map]
theorem stored_wh (f : DFeat) : (storedFeat P f).wh = f.wh.map (storedFeat P) := by cases f; simp [storedFeat, SFeat.wh, DFeat.wh, storedFeats_map]

/-- What a stored feature uses are the stored features it uses. -/
theorem stored_uses {s g : SFeat} (h : SUses s g) : ∀ f, s = storedFeat P f → ∃ d, MadeOf f d ∧ g = storedFeat P d := by
  induction h with
  | self s => intro f hf; exact ⟨f, .self (by simp), hf⟩
  | @dep _ d' _ hd _ ih =>
    intro f hf
    subst hf
    rw [stored_bases, stored_wh] at hd
    have : ∃ d, d ∈ f.bases ++ f.wh ∧ d' = storedFeat P d := by
      rcases hd with hd | hd <;> obtain ⟨d, hd', rfl⟩ := List.mem_map.mp hd
      · exact ⟨d, by simp [hd'], rfl⟩
      · exact ⟨d, by simp [hd'], rfl⟩
    obtain ⟨d, hd, e⟩ := this
    obtain ⟨x, hx, rfl⟩ := ih d e
    exact ⟨x, .dep (by simp) hd hx, rfl⟩

/-- What is loaded of a stored feature, if kinds come back. -/
theorem loaded_stored {Q : PInst → Prim} {ents : List DEnt} : ∀ (f : DFeat), (∀ g, MadeOf f g → loadedKind Q ents g.entity (storedKind P g.kind) = g.kind) →
    loadedFeat Q ents (storedFeat P f) = f
  | .mk k e n bs ws, h => by
    have hk := h _ (.self (by simp))
    have hb : bs.map (fun b => loadedFeat Q ents (storedFeat P b)) = bs := by
      rw [List.map_congr_left (g := id)]
      · simp
      · intro b hb
        exact loaded_stored b fun g hg => h g (.dep (by simp) (by simp [DFeat.bases, hb]) hg)
    have hw : ws.map (fun b => loadedFeat Q ents (storedFeat P b)) = ws := by
      rw [List.map_congr_left (g := id)]
      · simp
      · intro b hb
        exact loaded_stored b fun g hg => h g (.dep (by simp) (by simp [DFeat.wh, hb]) hg)
    simp only [DFeat.entity, DFeat.kind] at hk
    simp only [storedFeat, loadedFeat, hk, storedFeats_map, loadedFeats_map, List.map_map, Function.comp_def, hb, hw]
termination_by f => sizeOf f

end

/-! ## What the synthesis uses -/

theorem pathDown_getLast {a b : String} {path : List Relationship} (h : PathDown a path b) : ∃ r, path.getLast? = some r ∧ r.childE = b := by
  induction h with
  | last r => exact ⟨r, rfl, rfl⟩
  | step r h ih =>
    obtain ⟨s, h1, h2⟩ := ih
    obtain ⟨q, qs, rfl, _⟩ := pathDown_first h
    exact ⟨s, by simpa [List.getLast?_cons_cons] using h1, h2⟩

theorem interesting_found {T : VarClasses} {es : ESet} {S : Synth} (hents : S.ents = es.entities.map (synthEnt T)) {x : String × String} {i : Val}
    (h : i ∈ interestingOf S x) : ∃ x ∈ es.entities, ∃ v ∈ x.vars, i ∈ v.interesting := by
  unfold interestingOf at h
  split at h
  · cases h
  · next d hd =>
    split at h
    · cases h
    · next v hv =>
      have hd' := List.mem_of_find?_eq_some hd
      rw [hents] at hd'
      obtain ⟨y, hy, rfl⟩ := List.mem_map.mp hd'
      obtain ⟨w, hw, rfl⟩ := List.mem_map.mp (List.mem_of_find?_eq_some hv)
      exact ⟨y, hy, w, hw, h⟩

section
variable {L : Lang} {equalScalar : Val → Prim} {T : VarClasses} {es : ESet} {a : DfsArgs} {S : Synth} {target : String} {M : Option Int}
  (hc : Configured L equalScalar (es.entities.map (synthEnt T)) es.rels a S)
include hc

/-- The primitive of a part is one of the call. -/
theorem part_prim {f : DFeat} (hf : SynthPart S target M f) {p : Prim} (hp : UsesPrim f p) : PrimOfCall equalScalar es a p := by
  have clause : ∀ {x v g}, v ∈ interestingOf S x → f = clauseOf S g v → PrimOfCall equalScalar es a p := by
    rintro x v g hv rfl
    rcases hp with ⟨_, hp⟩ | hp | hp <;> simp [clauseOf, DFeat.kind] at hp
    obtain ⟨y, hy, w, hw, hi⟩ := interesting_found hc.ents hv
    exact .inr (.inr (.inr (.inl ⟨y, hy, w, hw, v, hi, by rw [← hp, hc.scalar]⟩)))
  have seed : OfSeed S f → PrimOfCall equalScalar es a p := by
    rintro ⟨s, hs, hm⟩
    exact .inr (.inr (.inr (.inr ⟨s, (hc.seeds s).mp hs, f, hm, hp⟩)))
  rcases hf with hf | ⟨c, x, v, _, hv, e⟩ | hf
  · cases hf with
    | identity => rcases hp with ⟨_, hp⟩ | hp | hp <;> simp [identityOf, DFeat.kind] at hp
    | seed _ hf => exact seed ⟨f, hf, .self (by simp)⟩
    | slice => rcases hp with ⟨_, hp⟩ | hp | hp <;> simp [sliceOf, DFeat.kind] at hp
    | trans e n q t hq =>
      rcases hp with ⟨_, hp⟩ | hp | hp <;> simp [DFeat.kind] at hp
      exact hp ▸ .inr (.inl ((hc.trans _).mp hq))
    | groupby e n q t k hq =>
      rcases hp with ⟨_, hp⟩ | hp | hp <;> simp [DFeat.kind] at hp
      exact hp ▸ .inr (.inr (.inl ((hc.groupbys _).mp hq)))
    | agg e c n path q t hq =>
      rcases hp with ⟨_, hp⟩ | hp | hp <;> simp [DFeat.kind] at hp
      exact hp.2 ▸ .inl ((hc.aggs _).mp hq)
    | aggWhere e c n path q t w b x v hq =>
      rcases hp with ⟨_, hp⟩ | hp | hp <;> simp [DFeat.kind] at hp
      exact hp.2 ▸ .inl ((hc.aggs _).mp hq)
    | direct => rcases hp with ⟨_, hp⟩ | hp | hp <;> simp [mkDirect, DFeat.kind] at hp
  · exact clause hv e
  · exact seed hf

/-- Every part is a feature of the entity set, as the constructors make it. -/
theorem part_made (hseeds : SeedsMadeOn T.cls es a.seeds) {f : DFeat} (hf : SynthPart S target M f) : MadeOn T.cls es f := by
  have path : ∀ {e c : String} {path : RelPath}, (c, path) ∈ (deepBackwardEntities S.rels (S.rels.length + 1) e).getD [] →
      (∀ x ∈ path, x.1 = false ∧ x.2 ∈ es.rels) ∧ (∃ x, path.head? = some x ∧ e = x.2.parentE) ∧ ∃ x, path.getLast? = some x ∧ x.2.childE = c := by
    intro e c path h
    obtain ⟨hback, hdown, hmem⟩ := agg_path h
    rw [hc.rels] at hmem
    obtain ⟨r, rs, hr, hre⟩ := pathDown_first hdown
    obtain ⟨l, hl, hle⟩ := pathDown_getLast hdown
    refine ⟨fun x hx => ⟨?_, hmem _ (List.mem_map_of_mem hx)⟩, ?_, ?_⟩
    · rw [← hback] at hx
      obtain ⟨_, _, rfl⟩ := List.mem_map.mp hx
      rfl
    · rw [← hback, hr]
      exact ⟨_, rfl, hre.symm⟩
    · rw [← hback, List.getLast?_map, hl]
      exact ⟨_, rfl, hle⟩
  have seed : OfSeed S f → MadeOn T.cls es f := fun ⟨s, hs, hm⟩ => hseeds s ((hc.seeds s).mp hs) f hm
  rcases hf with hf | ⟨c, x, v, _, hv, rfl⟩ | hf
  · cases hf with
    | identity d v hd hv =>
      rw [hc.ents] at hd
      obtain ⟨x, hx, rfl⟩ := List.mem_map.mp hd
      obtain ⟨y, hy, rfl⟩ := List.mem_map.mp hv
      exact ⟨rfl, rfl, x, hx, rfl, y, hy, rfl, rfl⟩
    | seed _ hf => exact seed ⟨f, hf, .self (by simp)⟩
    | slice b i hb => exact ⟨b, rfl, rfl, rfl⟩
    | trans e n p t _ _ _ ht hin => exact ⟨hin.nonempty, rfl, hin.entity⟩
    | groupby e n p t k _ _ _ ht hk hte hke =>
      refine ⟨by simp [DFeat.bases], rfl, fun b hb => ?_⟩
      simp only [DFeat.bases, List.mem_append, List.mem_singleton] at hb
      rcases hb with hb | rfl
      · exact hte b hb
      · exact hke
    | agg e c n p q t _ _ _ _ _ hpath ht hin =>
      obtain ⟨h1, h2, x, h3, h4⟩ := path hpath
      exact ⟨hin.nonempty, by simp [DFeat.wh], h1, h2, x, h3, fun b hb => (hin.entity b hb).trans h4.symm, by simp [DFeat.wh]⟩
    | aggWhere e c n p q t w b x v _ _ _ _ _ hpath ht hin _ _ _ _ hb _ hv hw hbe =>
      obtain ⟨h1, h2, x, h3, h4⟩ := path hpath
      refine ⟨hin.nonempty, by simp [DFeat.wh], h1, h2, x, h3, fun b hb => (hin.entity b hb).trans h4.symm, ?_⟩
      simp only [DFeat.wh, List.mem_singleton, forall_eq]
      rw [h4, hw, ← hbe]
      rfl
    | direct r b hr hb hbe => exact ⟨b, rfl, rfl, hbe, rfl, hc.rels ▸ hr⟩
  · refine ⟨by simp [clauseOf, DFeat.bases], rfl, fun b hb => ?_⟩
    simp only [clauseOf, DFeat.bases, List.mem_singleton] at hb
    rw [hb]
    rfl
  · exact seed hf

end

/-- What is made on an entity set can be stored, given the variables; group-by features are another matter. -/
theorem made_stored {cls : String → String} {es : ESet} {P : Prim → PInst} {known : Known}
    (hvars : ∀ x ∈ es.entities, ∀ v ∈ x.vars, known x.id v.id = true) (hrels : ∀ r ∈ es.rels, RelThere known r) {f : DFeat}
    (hf : MadeOn cls es f) : Spec.Built known (storedFeat P f) := by
  have hb : ∀ {b}, b ∈ (storedFeat P f).bases → ∃ b', b' ∈ f.bases ∧ b = storedFeat P b' := by
    intro b hb
    rw [stored_bases] at hb
    obtain ⟨b', h, rfl⟩ := List.mem_map.mp hb
    exact ⟨b', h, rfl⟩
  have hw : ∀ {b}, b ∈ (storedFeat P f).wh → ∃ b', b' ∈ f.wh ∧ b = storedFeat P b' := by
    intro b hb
    rw [stored_wh] at hb
    obtain ⟨b', h, rfl⟩ := List.mem_map.mp hb
    exact ⟨b', h, rfl⟩
  have hne : f.bases ≠ [] → (storedFeat P f).bases ≠ [] := by rw [stored_bases]; simp
  have hnil : f.wh = [] → (storedFeat P f).wh = [] := by rw [stored_wh]; intro h; simp [h]
  unfold MadeOn at hf
  unfold Spec.Built
  rw [stored_kind]
  cases hk : f.kind with
  | identity v t =>
    rw [hk] at hf
    obtain ⟨h1, h2, x, hx, he, y, hy, hv, _⟩ := hf
    refine ⟨by rw [stored_bases, h1]; rfl, hnil h2, ?_⟩
    rw [stored_entity, ← he, ← hv]
    exact hvars x hx y hy
  | direct r =>
    rw [hk] at hf
    obtain ⟨b, h1, h2, h3, h4, h5⟩ := hf
    exact ⟨storedFeat P b, by rw [stored_bases, h1]; rfl, hnil h2, by rw [stored_entity, h3], by rw [stored_entity, h4], hrels r h5⟩
  | agg path p =>
    rw [hk] at hf
    obtain ⟨h1, h2, h3, ⟨x, hx, hxe⟩, y, hy, hyb, hyw⟩ := hf
    refine ⟨hne h1, by rw [stored_wh]; simpa using h2, ⟨x.2, by rw [List.head?_map, hx]; rfl, by rw [stored_entity, hxe]⟩,
      ⟨y.2, by rw [List.getLast?_map, hy]; rfl, ?_, ?_⟩, ?_, by simp⟩
    · intro b h
      obtain ⟨b', h', rfl⟩ := hb h
      rw [stored_entity]; exact hyb b' h'
    · intro b h
      obtain ⟨b', h', rfl⟩ := hw h
      rw [stored_entity]; exact hyw b' h'
    · intro r hr
      obtain ⟨z, hz, rfl⟩ := List.mem_map.mp hr
      exact hrels _ (h3 z hz).2
  | trans p =>
    rw [hk] at hf
    refine ⟨hne hf.1, hnil hf.2.1, fun b h => ?_⟩
    obtain ⟨b', h', rfl⟩ := hb h
    rw [stored_entity, stored_entity]; exact hf.2.2 b' h'
  | groupby p =>
    rw [hk] at hf
    refine ⟨hne hf.1, hnil hf.2.1, fun b h => ?_⟩
    obtain ⟨b', h', rfl⟩ := hb h
    rw [stored_entity, stored_entity]; exact hf.2.2 b' h'
  | slice n =>
    rw [hk] at hf
    obtain ⟨b, h1, h2, h3⟩ := hf
    exact ⟨storedFeat P b, by rw [stored_bases, h1]; rfl, hnil h2, by rw [stored_entity, stored_entity, h3]⟩

/-- The primitive of a stored feature. -/
theorem stored_prim {P : Prim → PInst} {f : DFeat} {q : PInst} (hq : HasPrim (storedFeat P f) q) : ∃ p, UsesPrim f p ∧ q = P p := by
  unfold HasPrim at hq
  rw [stored_kind] at hq
  unfold UsesPrim
  cases hk : f.kind <;> rw [hk] at hq <;> simp [storedKind] at hq
  · exact ⟨_, .inl ⟨_, rfl⟩, hq.symm⟩
  · exact ⟨_, .inr (.inl rfl), hq.symm⟩
  · exact ⟨_, .inr (.inr rfl), hq.symm⟩

/-- The class of a feature of the entity set comes back. -/
theorem made_loaded {cls : String → String} {es : ESet} {P : Prim → PInst} {Q : PInst → Prim} {ents : List DEnt}
    (htype : ∀ x ∈ es.entities, ∀ v ∈ x.vars, (varIn ents x.id v.id).map DVar.type = some (cls v.type)) {f : DFeat}
    (hprim : ∀ p, UsesPrim f p → Q (P p) = p) (hf : MadeOn cls es f) : loadedKind Q ents f.entity (storedKind P f.kind) = f.kind := by
  unfold MadeOn at hf
  unfold UsesPrim at hprim
  cases hk : f.kind with
  | identity v t =>
    rw [hk] at hf
    obtain ⟨_, _, x, hx, he, y, hy, rfl, rfl⟩ := hf
    simp only [storedKind, loadedKind, ← he, htype x hx y hy, Option.getD_some]
  | direct r => rfl
  | agg path p =>
    rw [hk] at hf hprim
    have hp := hprim p (.inl ⟨path, rfl⟩)
    have : (path.map Prod.snd).map (fun r => (false, r)) = path := by
      rw [List.map_map, List.map_congr_left (g := id)]
      · simp
      · intro x hx
        have := (hf.2.2.1 x hx).1
        obtain ⟨b, r⟩ := x
        simp only at this
        subst this
        rfl
    simp only [storedKind, loadedKind, hp, this]
  | trans p => rw [hk] at hprim; simp only [storedKind, loadedKind, hprim p (.inr (.inl rfl))]
  | groupby p => rw [hk] at hprim; simp only [storedKind, loadedKind, hprim p (.inr (.inr rfl))]
  | slice n => rfl

end FT
