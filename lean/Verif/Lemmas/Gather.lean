import Verif.Lemmas.Plan
namespace FT
open Spec

theorem lookup_mem {α : Type} (n : String) (a : α) : ∀ l : List (String × α), l.lookup n = some a → (n, a) ∈ l
  | [], h => by simp at h
  | (k, v) :: l, h => by
    rw [List.lookup_cons] at h
    split at h
    · rename_i hk; cases h; simp only [beq_iff_eq] at hk; simp [hk]
    · exact List.mem_cons_of_mem _ (lookup_mem n a l h)

theorem lookup_isSome {α : Type} (n : String) : ∀ l : List (String × α), (∃ a, (n, a) ∈ l) → ∃ a, l.lookup n = some a
  | [], h => by simp at h
  | (k, v) :: l, h => by
    rw [List.lookup_cons]
    by_cases hk : n == k
    · simp [hk]
    · simp only [hk]
      obtain ⟨a, h⟩ := h
      apply lookup_isSome n l
      rcases List.mem_cons.mp h with h | h
      · cases h; simp at hk
      · exact ⟨a, h⟩

theorem mem_featuresByName (targets : List Feat) (n : String) (g : Feat) :
    (n, g) ∈ featuresByName targets ↔ NeededBy targets g ∧ n = g.uniqueName := by
  unfold featuresByName NeededBy Needs
  simp only [List.mem_append, List.mem_map, List.mem_flatMap, Prod.mk.injEq]
  constructor
  · rintro (⟨f, hf, h1, rfl⟩ | ⟨f, hf, d, hd, h1, rfl⟩)
    · exact ⟨⟨f, hf, .inl rfl⟩, h1.symm⟩
    · exact ⟨⟨f, hf, .inr ((mem_deepDeps ..).mp hd)⟩, h1.symm⟩
  · rintro ⟨⟨f, hf, rfl | h⟩, rfl⟩
    · exact .inl ⟨g, hf, rfl, rfl⟩
    · exact .inr ⟨f, hf, g, (mem_deepDeps ..).mpr h, rfl, rfl⟩

/-- Looking up the name of a needed feature finds that feature. -/
theorem lookupFeature_needed (targets : List Feat) (hinj : NamesIdentify targets) (g : Feat) (hg : NeededBy targets g) :
    lookupFeature (featuresByName targets) g.uniqueName = some g := by
  unfold lookupFeature
  obtain ⟨a, ha⟩ := lookup_isSome g.uniqueName (featuresByName targets).reverse
    ⟨g, List.mem_reverse.mpr ((mem_featuresByName ..).mpr ⟨hg, rfl⟩)⟩
  rw [ha]
  obtain ⟨h1, h2⟩ := (mem_featuresByName ..).mp (List.mem_reverse.mp (lookup_mem _ _ _ ha))
  rw [hinj a g h1 hg h2.symm]

theorem usesFullOrDependent_iff (targets : List Feat) (hinj : NamesIdentify targets) (f : Feat) :
    usesFullOrDependent targets f = true ↔ FullEntityInvolved targets f := by
  unfold usesFullOrDependent FullEntityInvolved
  simp only [Bool.or_eq_true, List.any_eq_true, Bool.and_eq_true, beq_iff_eq]
  constructor
  · rintro (h | ⟨⟨n, g⟩, hg, hu, d, hd, he⟩)
    · exact .inl h
    · obtain ⟨hg', rfl⟩ := (mem_featuresByName ..).mp hg
      rw [lookupFeature_needed targets hinj g hg'] at hu
      exact .inr ⟨g, hg', hu, d, (mem_deepDeps ..).mp hd, he⟩
  · rintro (h | ⟨g, hg, hu, d, hd, he⟩)
    · exact .inl h
    · right
      refine ⟨(g.uniqueName, g), (mem_featuresByName ..).mpr ⟨hg, rfl⟩, ?_, d, (mem_deepDeps ..).mpr hd, he⟩
      simp only [lookupFeature_needed targets hinj g hg, Option.getD_some, hu]

theorem followDirect_spec : ∀ (n : Nat) (f : Feat) (p0 : RelPath), f.size ≤ n →
    (∀ p g, DirectChain f p g → followDirect n p0 f = (p0 ++ p, g)) ∧
    ((∀ r, f.kind ≠ .direct r) → followDirect n p0 f = (p0, f)) := by
  intro n
  induction n with
  | zero => intro f _ h; have := f.size_pos; omega
  | succ n ih =>
    intro f p0 hn
    constructor
    · intro p g h
      cases h with
      | last hk hb hnd =>
        rename_i r bs
        have hp : f.path = [(true, r)] := by simp [Feat.path, hk, Kind.path]
        have hlt := Feat.size_dep (f := f) (d := g) (Feat.mem_deps.mpr (.inl (by rw [hb]; simp)))
        rw [followDirect, hk, hb, hp]
        exact (ih g (p0 ++ [(true, r)]) (by omega)).2 hnd
      | more hk hb hc =>
        rename_i r b bs p
        have hp : f.path = [(true, r)] := by simp [Feat.path, hk, Kind.path]
        have hlt := Feat.size_dep (f := f) (d := b) (Feat.mem_deps.mpr (.inl (by rw [hb]; simp)))
        rw [followDirect, hk, hb, hp]
        have := (ih b (p0 ++ [(true, r)]) (by omega)).1 _ _ hc
        simp only [this, List.append_assoc, List.singleton_append]
    · intro h
      rw [followDirect]
      split
      · rename_i r _ _ hk _; exact absurd hk (h r)
      · rfl

theorem directChain_total : ∀ (n : Nat) (f : Feat), f.size ≤ n → (∀ g, Needs f g → ∀ r, g.kind = .direct r → g.bases ≠ []) →
    (∃ r, f.kind = .direct r) → ∃ p g, DirectChain f p g := by
  intro n
  induction n with
  | zero => intro f h; have := f.size_pos; omega
  | succ n ih =>
    intro f hn hw ⟨r, hr⟩
    cases hb : f.bases with
    | nil => exact absurd hb (hw f (.inl rfl) r hr)
    | cons b bs =>
      have hmem : b ∈ f.bases ∨ b ∈ f.wh := .inl (by rw [hb]; simp)
      have hlt := Feat.size_dep (f := f) (d := b) (Feat.mem_deps.mpr hmem)
      by_cases hd : ∃ r', b.kind = .direct r'
      · obtain ⟨p, g, hc⟩ := ih b (by omega) (fun g hg r hr => hw g (.inr (by
          rcases hg with rfl | hg
          · exact .direct hmem (by simp)
          · exact .deep hmem (by simp) hg)) r hr) hd
        exact ⟨_, _, .more hr hb hc⟩
      · exact ⟨_, _, .last hr hb (fun r' h => hd ⟨r', h⟩)⟩

/-- What one target adds. -/
def Gathers (targets : List Feat) (f : Feat) (p : List Edge) (n : String) : Prop :=
  ¬ FullEntityInvolved targets f ∧ ∃ g, DirectChain f p g ∧ (∃ q pr pv u, g.kind = .agg q pr pv u) ∧ n = g.uniqueName

theorem directChain_det {f p g p' g'} (h : DirectChain f p g) (h' : DirectChain f p' g') : p = p' ∧ g = g' := by
  have h1 := (followDirect_spec f.size f [] (Nat.le_refl _)).1 p g h
  have h2 := (followDirect_spec f.size f [] (Nat.le_refl _)).1 p' g' h'
  rw [h1] at h2
  simpa using h2

theorem hidden_gatherOne (targets : List Feat) (hinj : NamesIdentify targets) (f : Feat)
    (hw : ∀ g, Needs f g → ∀ r, g.kind = .direct r → g.bases ≠ []) (t : ATrie) (p : List Edge) (n : String) :
    n ∈ hiddenBy (gatherOne targets t f) p ↔ n ∈ hiddenBy t p ∨ Gathers targets f p n := by
  unfold gatherOne
  split
  · rename_i h
    have := (usesFullOrDependent_iff targets hinj f).mp h
    simp [Gathers, this]
  · rename_i h
    have hnot : ¬ FullEntityInvolved targets f := fun h' => h ((usesFullOrDependent_iff targets hinj f).mpr h')
    by_cases hd : ∃ r, f.kind = .direct r
    · obtain ⟨p', g, hc⟩ := directChain_total f.size f (Nat.le_refl _) hw hd
      obtain ⟨r, hr⟩ := hd
      have hfol := (followDirect_spec f.size f [] (Nat.le_refl _)).1 p' g hc
      simp only [hr, hfol, List.nil_append]
      have hG : Gathers targets f p n ↔ p = p' ∧ (∃ q pr pv u, g.kind = .agg q pr pv u) ∧ n = g.uniqueName := by
        constructor
        · rintro ⟨_, g', hc', ha, hn⟩
          obtain ⟨rfl, rfl⟩ := directChain_det hc hc'
          exact ⟨rfl, ha, hn⟩
        · rintro ⟨rfl, ha, hn⟩
          exact ⟨hnot, g, hc, ha, hn⟩
      rw [hG]
      split
      · rename_i q pr pv u hk
        have hv : hiddenBy (Trie.modifyAt [] (fun s => s.setValue (setAdd s.value g.uniqueName)) p' t) p =
            if p = p' then setAdd (hiddenBy t p) g.uniqueName else hiddenBy t p := by
          show valueAt [] p _ = _
          by_cases hp : p' <+: p
          · obtain ⟨s, rfl⟩ := hp
            rw [valueAt_modifyAt_below]
            cases s with
            | nil => simp [valueAt_nil, hiddenBy]
            | cons k s => rw [valueAt_setValue_cons, ← valueAt_append]; simp [hiddenBy, valueAt]
          · rw [valueAt_modifyAt_other _ _ _ _ _ hp, if_neg (by rintro rfl; exact hp (List.prefix_refl _))]; rfl
        rw [hv]
        by_cases hp : p = p'
        · simp [hp, mem_setAdd, hk]
        · simp [hp]
      · rename_i hk
        constructor
        · exact .inl
        · rintro (h | ⟨_, ⟨q, pr, pv, u, h'⟩, _⟩)
          · exact h
          · exact absurd h' (hk q pr pv u)
    · have hd' : ∀ r, f.kind ≠ .direct r := fun r h => hd ⟨r, h⟩
      have hG : ¬ Gathers targets f p n := by
        rintro ⟨_, g, hc, _⟩
        cases hc with
        | last hk _ _ => exact hd' _ hk
        | more hk _ _ => exact hd' _ hk
      simp only [hG, or_false]

theorem hidden_gather (targets : List Feat) (hinj : NamesIdentify targets)
    (hw : ∀ g, NeededBy targets g → ∀ r, g.kind = .direct r → g.bases ≠ []) (p : List Edge) (n : String) :
    n ∈ hiddenBy (gatherApproximate targets) p ↔ ∃ f ∈ targets, Gathers targets f p n := by
  unfold gatherApproximate
  suffices ∀ (fs : List Feat), (∀ f ∈ fs, f ∈ targets) → ∀ t : ATrie, n ∈ hiddenBy (fs.foldl (gatherOne targets) t) p ↔
      n ∈ hiddenBy t p ∨ ∃ f ∈ fs, Gathers targets f p n by
    rw [this targets (fun _ h => h)]
    have : hiddenBy (Trie.new [] : ATrie) p = [] := valueAt_new [] p
    simp [this]
  intro fs
  induction fs with
  | nil => intro _ t; simp
  | cons f fs ih =>
    intro hsub t
    rw [List.foldl_cons, ih (fun g hg => hsub g (by simp [hg])),
      hidden_gatherOne targets hinj f (fun g hg => hw g ⟨f, hsub f (by simp), hg⟩)]
    simp only [List.mem_cons, or_and_right, exists_or, exists_eq_left, or_assoc]

end FT
