import Verif.Model.Unused
import Verif.Spec.Unused
import Verif.Lemmas.DfsProps
import Verif.Lemmas.Sort
/-! Lemmas on the report of unused primitives. -/
namespace FT
open FT.Spec

/-- The feature a slice is taken from, or the feature itself. -/
def coreOf : DFeat → DFeat
  | .mk (.slice _) _ _ (b :: _) _ => b
  | f => f

theorem exploreFeature_eq (f : DFeat) (u : Usage) : exploreFeature f u =
    if u.explored.contains f.name then u else exploreAll (coreOf f).wh (exploreAll (coreOf f).bases (record (coreOf f) u)) := by
  obtain ⟨k, e, n, bs, ws⟩ := f
  cases k with
  | slice i =>
    cases bs with
    | nil => rw [exploreFeature]; rfl; intros; simp_all
    | cons b bs => obtain ⟨k', e', n', bs', ws'⟩ := b; rw [exploreFeature]; rfl
  | identity => rw [exploreFeature]; rfl; intros; simp_all
  | direct => rw [exploreFeature]; rfl; intros; simp_all
  | agg => rw [exploreFeature]; rfl; intros; simp_all
  | trans => rw [exploreFeature]; rfl; intros; simp_all
  | groupby => rw [exploreFeature]; rfl; intros; simp_all


/-- The set of a role. -/
def Usage.of (u : Usage) : Role → List String
  | .transform => u.transform | .aggregation => u.agg | .groupby => u.groupby | .whered => u.whered

theorem record_of (f : DFeat) (u : Usage) (r : Role) (n : String) : n ∈ (record f u).of r ↔ MadeAs r n f ∨ n ∈ u.of r := by
  unfold record
  cases hk : f.kind with
  | agg path p =>
    by_cases hw : f.wh = []
    · cases r <;> simp [Usage.of, MadeAs, hk, hw, @eq_comm _ n]
      grind
    · cases r <;> simp [Usage.of, MadeAs, hk, hw, @eq_comm _ n]
      grind
  | _ => cases r <;> simp [Usage.of, MadeAs, hk, @eq_comm _ n]

theorem record_explored (f : DFeat) (u : Usage) : (record f u).explored = f.name :: u.explored := by
  unfold record
  cases hk : f.kind with
  | agg path p => by_cases hw : f.wh = [] <;> simp [hw]
  | _ => simp

/-- More has been recorded. -/
structure Usage.Le (u v : Usage) : Prop where
  of : ∀ r n, n ∈ u.of r → n ∈ v.of r
  explored : ∀ n, n ∈ u.explored → n ∈ v.explored

theorem Usage.Le.refl (u : Usage) : Usage.Le u u := ⟨fun _ _ h => h, fun _ h => h⟩
theorem Usage.Le.trans {u v w : Usage} (a : Usage.Le u v) (b : Usage.Le v w) : Usage.Le u w :=
  ⟨fun r n h => b.of r n (a.of r n h), fun n h => b.explored n (a.explored n h)⟩

section
variable (U : DFeat → Prop)

/-- What the search keeps up; the deps of the features named in `busy` are still to come. -/
structure Searched (busy : List String) (u : Usage) : Prop where
  sound : ∀ r n, n ∈ u.of r → ∃ g, U g ∧ MadeAs r n g
  whole : ∀ n ∈ u.explored, ∃ g, U g ∧ g.name = n ∧ ∀ i, g.kind ≠ .slice i
  made : ∀ g, U g → g.name ∈ u.explored → ∀ r n, MadeAs r n g → n ∈ u.of r
  deps : ∀ g, U g → g.name ∈ u.explored → g.name ∉ busy → ∀ d ∈ g.bases ++ g.wh, (coreOf d).name ∈ u.explored

variable (hU : ∀ g, U g → Proper g ∧ ∀ d ∈ g.bases ++ g.wh, U d) (hN : ∀ g g', U g → U g' → g.name = g'.name → g = g')
  (hS : ∀ g, U g → ∀ i, g.kind = .slice i → ∀ d ∈ g.bases, ∀ j, d.kind ≠ .slice j)
include hU hN hS

theorem coreOf_in {f : DFeat} (h : U f) : U (coreOf f) ∧ ∀ i, (coreOf f).kind ≠ .slice i := by
  obtain ⟨k, e, n, bs, ws⟩ := f
  cases k with
  | slice i =>
    cases bs with
    | nil => obtain ⟨hp, _⟩ := hU _ h; cases hp
    | cons b bs => exact ⟨(hU _ h).2 b (by simp [DFeat.bases]), hS _ h i rfl b (by simp [DFeat.bases])⟩
  | _ => exact ⟨h, by simp [coreOf, DFeat.kind]⟩

mutual
theorem explore_spec : ∀ (f : DFeat) (busy : List String) (u : Usage), U f → Searched U busy u →
    Searched U busy (exploreFeature f u) ∧ Usage.Le u (exploreFeature f u) ∧ (coreOf f).name ∈ (exploreFeature f u).explored
  | .mk k e n bs ws, busy, u, hf, hs => by
    have hc := coreOf_in U hU hN hS hf
    rw [exploreFeature_eq]
    by_cases hx : n ∈ u.explored
    · have hx' : u.explored.contains (DFeat.mk k e n bs ws).name = true := by simpa [DFeat.name] using hx
      rw [if_pos hx']
      refine ⟨hs, .refl u, ?_⟩
      obtain ⟨g, hg, hgn, hgs⟩ := hs.whole n hx
      have := hN _ _ hg hf hgn
      subst this
      have : coreOf (.mk k e n bs ws) = .mk k e n bs ws := by
        cases k with
        | slice i => exact absurd rfl (hgs i)
        | _ => rfl
      rw [this]
      exact hx
    · have hx' : ¬u.explored.contains (DFeat.mk k e n bs ws).name = true := by simpa [DFeat.name] using hx
      rw [if_neg hx']
      have finish : ∀ (c : DFeat), U c → (∀ i, c.kind ≠ .slice i) →
          (∀ busy u, (∀ d ∈ c.bases, U d) → Searched U busy u →
            Searched U busy (exploreAll c.bases u) ∧ Usage.Le u (exploreAll c.bases u) ∧ ∀ d ∈ c.bases, (coreOf d).name ∈ (exploreAll c.bases u).explored) →
          (∀ busy u, (∀ d ∈ c.wh, U d) → Searched U busy u →
            Searched U busy (exploreAll c.wh u) ∧ Usage.Le u (exploreAll c.wh u) ∧ ∀ d ∈ c.wh, (coreOf d).name ∈ (exploreAll c.wh u).explored) →
          Searched U busy (exploreAll c.wh (exploreAll c.bases (record c u))) ∧ Usage.Le u (exploreAll c.wh (exploreAll c.bases (record c u))) ∧
            c.name ∈ (exploreAll c.wh (exploreAll c.bases (record c u))).explored := by
        intro c hcU hck ihb ihw
        have h1 : Searched U (c.name :: busy) (record c u) := by
          refine ⟨fun r m hm => ?_, fun m hm => ?_, fun g hg hgx r m hm => ?_, fun g hg hgx hgb d hd => ?_⟩
          · rcases (record_of c u r m).mp hm with h | h
            · exact ⟨c, hcU, h⟩
            · exact hs.sound r m h
          · rw [record_explored] at hm
            rcases List.mem_cons.mp hm with rfl | h
            · exact ⟨c, hcU, rfl, hck⟩
            · exact hs.whole m h
          · rw [record_explored] at hgx
            rw [record_of]
            rcases List.mem_cons.mp hgx with h | h
            · exact .inl (hN g c hg hcU h ▸ hm)
            · exact .inr (hs.made g hg h r m hm)
          · rw [record_explored] at hgx ⊢
            rcases List.mem_cons.mp hgx with h | h
            · exact absurd (h ▸ List.mem_cons_self) hgb
            · exact List.mem_cons_of_mem _ (hs.deps g hg h (fun hb => hgb (List.mem_cons_of_mem _ hb)) d hd)
        have hle1 : Usage.Le u (record c u) := ⟨fun r m h => (record_of c u r m).mpr (.inr h), fun m h => by rw [record_explored]; exact List.mem_cons_of_mem _ h⟩
        obtain ⟨b1, b2, b3⟩ := ihb (c.name :: busy) _ (fun d hd => (hU c hcU).2 d (List.mem_append_left _ hd)) h1
        obtain ⟨w1, w2, w3⟩ := ihw (c.name :: busy) _ (fun d hd => (hU c hcU).2 d (List.mem_append_right _ hd)) b1
        have hin : c.name ∈ (exploreAll c.wh (exploreAll c.bases (record c u))).explored :=
          w2.explored _ (b2.explored _ (by rw [record_explored]; exact List.mem_cons_self))
        refine ⟨⟨w1.sound, w1.whole, w1.made, fun g hg hgx hgb d hd => ?_⟩, hle1.trans (b2.trans w2), hin⟩
        by_cases hgc : g.name = c.name
        · have := hN g c hg hcU hgc
          subst this
          rcases List.mem_append.mp hd with hd | hd
          · exact w2.explored _ (b3 d hd)
          · exact w3 d hd
        · exact w1.deps g hg hgx (by simpa [hgc] using hgb) d hd
      match k, bs, hf, hc with
      | .slice i, .mk k' e' n' bs' ws' :: bs'', hf, hc =>
        exact finish (.mk k' e' n' bs' ws') hc.1 hc.2 (exploreAll_spec bs') (exploreAll_spec ws')
      | .slice i, [], hf, hc => obtain ⟨hp, _⟩ := hU _ hf; cases hp
      | .identity v t, bs, hf, hc => exact finish (.mk (.identity v t) e n bs ws) hc.1 hc.2 (exploreAll_spec bs) (exploreAll_spec ws)
      | .direct r, bs, hf, hc => exact finish (.mk (.direct r) e n bs ws) hc.1 hc.2 (exploreAll_spec bs) (exploreAll_spec ws)
      | .agg path p, bs, hf, hc => exact finish (.mk (.agg path p) e n bs ws) hc.1 hc.2 (exploreAll_spec bs) (exploreAll_spec ws)
      | .trans p, bs, hf, hc => exact finish (.mk (.trans p) e n bs ws) hc.1 hc.2 (exploreAll_spec bs) (exploreAll_spec ws)
      | .groupby p, bs, hf, hc => exact finish (.mk (.groupby p) e n bs ws) hc.1 hc.2 (exploreAll_spec bs) (exploreAll_spec ws)
theorem exploreAll_spec : ∀ (fs : List DFeat) (busy : List String) (u : Usage), (∀ f ∈ fs, U f) → Searched U busy u →
    Searched U busy (exploreAll fs u) ∧ Usage.Le u (exploreAll fs u) ∧ ∀ f ∈ fs, (coreOf f).name ∈ (exploreAll fs u).explored
  | [], busy, u, _, hs => by rw [exploreAll]; exact ⟨hs, .refl u, by simp⟩
  | f :: fs, busy, u, hf, hs => by
    rw [exploreAll]
    obtain ⟨a1, a2, a3⟩ := explore_spec f busy u (hf f List.mem_cons_self) hs
    obtain ⟨b1, b2, b3⟩ := exploreAll_spec fs busy _ (fun g hg => hf g (List.mem_cons_of_mem _ hg)) a1
    refine ⟨b1, a2.trans b2, fun g hg => ?_⟩
    rcases List.mem_cons.mp hg with rfl | hg
    · exact b2.explored _ a3
    · exact b3 g hg
end

theorem searched_uses {u : Usage} (hs : Searched U [] u) {f g : DFeat} (h : DepUses [] f g) :
    U f → (coreOf f).name ∈ u.explored → ∀ r n, MadeAs r n g → n ∈ u.of r := by
  have slice_deps : ∀ f, U f → ∀ d ∈ f.bases ++ f.wh, f = coreOf f ∨ d = coreOf f := by
    intro f hf d hd
    obtain ⟨k, e, n, bs, ws⟩ := f
    cases k with
    | slice i =>
      obtain ⟨hp, _⟩ := hU _ hf
      cases hp with
      | slice _ _ _ hb => exact .inr (by simpa [DFeat.bases, DFeat.wh, coreOf] using hd)
    | _ => exact .inl rfl
  have slice_self : ∀ f, U f → f = coreOf f ∨ ∃ i, f.kind = .slice i := by
    intro f _
    obtain ⟨k, e, n, bs, ws⟩ := f
    cases k with
    | slice i => exact .inr ⟨i, rfl⟩
    | _ => exact .inl rfl
  induction h with
  | @self f _ =>
    intro hf hx r n hm
    rcases slice_self f hf with e | ⟨i, hi⟩
    · exact hs.made f hf (by rw [e]; exact hx) r n hm
    · cases r <;> simp [MadeAs, hi] at hm
  | @dep f d g _ hd _ ih =>
    intro hf hx r n hm
    have hdU := (hU f hf).2 d hd
    refine ih hdU ?_ r n hm
    rcases slice_deps f hf d hd with e | e
    · exact hs.deps f hf (by rw [e]; exact hx) (by simp) d hd
    · rw [← e] at hx
      have : coreOf d = d := by
        have := (coreOf_in U hU hN hS hf).2
        rw [← e] at this
        rcases slice_self d hdU with h | ⟨i, hi⟩
        · exact h.symm
        · exact absurd hi (this i)
      rw [this]; exact hx

end

theorem uses_trans {f g h : DFeat} (a : DepUses [] f g) (b : DepUses [] g h) : DepUses [] f h := by
  induction a with
  | self => exact b
  | dep hn hd _ ih => exact .dep hn hd (ih b)

theorem uses_proper {f g : DFeat} (a : DepUses [] f g) : Proper f → Proper g := by
  induction a with
  | self => exact id
  | dep _ hd _ ih => exact fun hp => ih (hp.deps _ hd)

end FT
