import Verif.Spec.FeatureSet
import Verif.Lemmas.Feature
import Verif.Lemmas.Sort
namespace FT
open Spec

/-! ## runs of equal keys -/
section runs
variable {α κ : Type} [DecidableEq κ]

theorem groupRuns_flatten (key : α → κ) (l : List α) : (groupRuns key l).flatten = l := by
  induction l with
  | nil => rfl
  | cons a as ih =>
    simp only [groupRuns]
    split
    · rename_i b g gs h
      rw [h] at ih
      split
      · simp only [List.flatten_cons, List.cons_append] at ih ⊢; rw [ih]
      · simp only [List.flatten_cons, List.cons_append, List.nil_append] at ih ⊢; rw [ih]
    · simp only [List.flatten_cons, List.cons_append, List.nil_append, ih]

theorem groupRuns_ne_nil (key : α → κ) (l : List α) : ∀ g ∈ groupRuns key l, g ≠ [] := by
  induction l with
  | nil => simp [groupRuns]
  | cons a as ih =>
    simp only [groupRuns]
    split
    · rename_i b g gs h
      rw [h] at ih
      split
      · intro g' hg'
        rcases List.mem_cons.mp hg' with rfl | hg'
        · simp
        · exact ih g' (by simp [hg'])
      · intro g' hg'
        rcases List.mem_cons.mp hg' with rfl | hg'
        · simp
        · exact ih g' hg'
    · intro g' hg'
      rcases List.mem_cons.mp hg' with rfl | hg'
      · simp
      · exact ih g' hg'

theorem groupRuns_same (key : α → κ) (l : List α) : ∀ g ∈ groupRuns key l, ∀ a ∈ g, ∀ b ∈ g, key a = key b := by
  induction l with
  | nil => simp [groupRuns]
  | cons x as ih =>
    simp only [groupRuns]
    split
    · rename_i b g gs h
      rw [h] at ih
      split
      · rename_i hk
        intro g' hg'
        rcases List.mem_cons.mp hg' with rfl | hg'
        · have hb : ∀ c ∈ b :: g, key c = key b := fun c hc => ih (b :: g) (by simp) c hc b (by simp)
          have hall : ∀ c ∈ x :: b :: g, key c = key b := by
            intro c hc
            rcases List.mem_cons.mp hc with rfl | hc
            · exact hk
            · exact hb c hc
          intro c hc d hd
          rw [hall c hc, hall d hd]
        · exact ih g' (by simp [hg'])
      · intro g' hg'
        rcases List.mem_cons.mp hg' with rfl | hg'
        · intro c hc d hd
          simp only [List.mem_singleton] at hc hd
          rw [hc, hd]
        · exact ih g' hg'
    · intro g' hg'
      rcases List.mem_cons.mp hg' with rfl | hg'
      · intro c hc d hd
        simp only [List.mem_singleton] at hc hd
        rw [hc, hd]
      · exact ih g' hg'

/-- Neighbouring groups have different keys. -/
theorem groupRuns_adjacent (key : α → κ) (l : List α) (i : Nat) (g1 g2 : List α)
    (h1 : (groupRuns key l)[i]? = some g1) (h2 : (groupRuns key l)[i+1]? = some g2) :
    ∀ a ∈ g1, ∀ b ∈ g2, key a ≠ key b := by
  induction l generalizing i g1 with
  | nil => simp [groupRuns] at h1
  | cons x as ih =>
    simp only [groupRuns] at h1 h2
    split at h1
    · rename_i b g gs h
      have hs := groupRuns_same key as
      rw [h] at ih hs
      have hb : ∀ c ∈ b :: g, key c = key b := fun c hc => hs (b :: g) (by simp) c hc b (by simp)
      split at h1
      · rename_i hk
        simp only [h, hk, if_true] at h2
        cases i with
        | zero =>
          simp only [List.getElem?_cons_zero, Option.some.injEq] at h1
          simp only [List.getElem?_cons_succ, Nat.zero_add] at h2
          subst h1
          intro a ha c hc
          have : key a = key b := by
            rcases List.mem_cons.mp ha with rfl | ha
            · exact hk
            · exact hb a ha
          rw [this]
          exact ih 0 (b :: g) (by simp) (by simpa using h2) b (by simp) c hc
        | succ i =>
          simp only [List.getElem?_cons_succ] at h1 h2
          exact ih (i+1) g1 (by simpa using h1) (by simpa using h2)
      · rename_i hk
        simp only [h, hk, if_false] at h2
        cases i with
        | zero =>
          simp only [List.getElem?_cons_zero, Option.some.injEq] at h1
          simp only [List.getElem?_cons_succ, Nat.zero_add, List.getElem?_cons_zero, Option.some.injEq] at h2
          subst h1; subst h2
          intro a ha c hc
          simp only [List.mem_singleton] at ha
          rw [ha, hb c hc]; exact hk
        | succ i =>
          simp only [List.getElem?_cons_succ] at h1 h2
          exact ih i g1 h1 h2
    · rename_i hne
      have hnil : groupRuns key as = [] := by
        cases h : groupRuns key as with
        | nil => rfl
        | cons g gs =>
          cases g with
          | nil => exact absurd rfl (groupRuns_ne_nil key as [] (by rw [h]; simp))
          | cons b g => exact absurd h (hne b g gs)
      rw [hnil] at h2
      simp at h2

end runs

/-! ## the order on keys -/

def keyLe (a b : List (List Int)) : Bool := (compare a b).isLE

theorem keyLe_total (a b : List (List Int)) : (keyLe a b || keyLe b a) = true := by
  unfold keyLe
  rw [Std.OrientedCmp.eq_swap (cmp := compare) (a := b) (b := a)]
  cases compare a b <;> rfl

theorem keyLe_trans (a b c : List (List Int)) (h1 : keyLe a b = true) (h2 : keyLe b c = true) : keyLe a c = true :=
  Std.TransCmp.isLE_trans h1 h2

theorem keyLe_antisymm (a b : List (List Int)) (h1 : keyLe a b = true) (h2 : keyLe b a = true) : a = b := by
  unfold keyLe at *
  rw [Std.OrientedCmp.eq_swap (cmp := compare) (a := b) (b := a)] at h2
  cases h : compare a b with
  | lt => rw [h] at h2; simp at h2
  | gt => rw [h] at h1; simp at h1
  | eq => exact Std.LawfulEqCmp.eq_of_compare h

/-- The first component decides. -/
theorem keyLe_head (x y : Int) (xs ys : List (List Int)) (h : keyLe ([x] :: xs) ([y] :: ys) = true) : x ≤ y := by
  unfold keyLe at h
  have hc : compare ([x] :: xs) ([y] :: ys) = (compare [x] [y]).then (compare xs ys) := by
    show List.compareLex _ _ _ = _
    simp only [List.compareLex]
    split <;> simp_all [Ordering.then]
    all_goals rfl
  have hc2 : compare [x] [y] = compare x y := by
    show List.compareLex _ _ _ = _
    simp only [List.compareLex]
    split <;> simp_all
  rw [hc, hc2] at h
  rcases Int.lt_trichotomy x y with h' | h' | h'
  · omega
  · omega
  · have : compare x y = .gt := by
      show compareOfLessAndEq x y = .gt
      unfold compareOfLessAndEq
      rw [if_neg (by omega), if_neg (by omega)]
    rw [this] at h
    simp at h

/-! ## the depth computation -/

theorem lowerAll_le (f : String) (ds : List String) : ∀ (o : String → Int) (n : String), lowerAll f o ds n ≤ o n := by
  induction ds with
  | nil => intro o n; exact Int.le_refl _
  | cons d ds ih =>
    intro o n
    refine Int.le_trans (ih _ n) ?_
    unfold lowerOrder
    split
    · rename_i h; subst h; omega
    · omega

theorem lowerAll_other (f : String) (ds : List String) : ∀ (o : String → Int) (n : String), n ∉ ds → lowerAll f o ds n = o n := by
  induction ds with
  | nil => intro o n _; rfl
  | cons d ds ih =>
    intro o n hn
    simp only [List.mem_cons, not_or] at hn
    rw [lowerAll, ih _ n hn.2]
    simp [lowerOrder, hn.1]

theorem lowerAll_dep (f : String) (ds : List String) (hf : f ∉ ds) : ∀ (o : String → Int) (n : String), n ∈ ds →
    lowerAll f o ds n ≤ o f - 1 := by
  induction ds with
  | nil => intro o n h; cases h
  | cons d ds ih =>
    intro o n hn
    simp only [List.mem_cons, not_or] at hf
    rw [lowerAll]
    have hof : lowerOrder (o f) o d f = o f := by simp [lowerOrder, hf.1]
    rcases List.mem_cons.mp hn with rfl | hn
    · refine Int.le_trans (lowerAll_le _ _ _ _) ?_
      simp only [lowerOrder, if_true]; omega
    · have := ih hf.2 (lowerOrder (o f) o d) n hn
      rw [hof] at this; exact this

theorem depthPush_sub {f d : Feat} (h : d ∈ depthPush f) : f.path = [] ∧ d ∈ f.deps := by
  unfold depthPush at h
  split at h
  · rename_i hp; exact ⟨by simpa using hp, h⟩
  · cases h

/-- The loop invariant: a feature with a recorded depth is queued again, or the record is current and its
dependencies are strictly lower and recorded or queued. -/
structure DepthInv (U : Feat → Prop) (queue : List Feat) (s : DepthState) : Prop where
  sub : ∀ f ∈ queue, U f
  done : ∀ f k, U f → s.depths f.uniqueName = some k → f ∈ queue ∨
    (k = s.order f.uniqueName ∧ ∀ d ∈ depthPush f, s.order d.uniqueName ≤ s.order f.uniqueName - 1 ∧
      (d ∈ queue ∨ ∃ k', s.depths d.uniqueName = some k'))

theorem depthInv_step (U : Feat → Prop) (hclosed : ∀ f, U f → ∀ d ∈ f.deps, U d)
    (hinj : ∀ a b, U a → U b → a.uniqueName = b.uniqueName → a = b) (g : Feat) (q : List Feat) (s : DepthState)
    (h : DepthInv U (g :: q) s) : DepthInv U (q ++ depthPush g) (depthStep s g) := by
  have hg : U g := h.sub g (by simp)
  have hname : ∀ n, (depthStep s g).depths n = if n = g.uniqueName then some (s.order g.uniqueName) else s.depths n := by
    intro n; unfold depthStep; split <;> rfl
  have hself : g.uniqueName ∉ g.deps.map Feat.uniqueName := by
    intro hm
    obtain ⟨d, hd, he⟩ := List.mem_map.mp hm
    have := hinj d g (hclosed g hg d hd) hg he
    have := Feat.size_dep hd
    rw [‹d = g›] at this; omega
  have hle : ∀ n, (depthStep s g).order n ≤ s.order n := by
    intro n; unfold depthStep; split
    · exact lowerAll_le _ _ _ _
    · exact Int.le_refl _
  have hoth : ∀ f, U f → f ∉ depthPush g → (depthStep s g).order f.uniqueName = s.order f.uniqueName := by
    intro f hf hnot
    unfold depthStep
    unfold depthPush at hnot
    split
    · rename_i hp
      rw [if_pos hp] at hnot
      apply lowerAll_other
      intro hm
      obtain ⟨d, hd, he⟩ := List.mem_map.mp hm
      have := hinj d f (hclosed g hg d hd) hf he
      exact hnot (this ▸ hd)
    · rfl
  have hgo : (depthStep s g).order g.uniqueName = s.order g.uniqueName := by
    apply hoth g hg
    intro hm
    have := Feat.size_dep (depthPush_sub hm).2
    omega
  constructor
  · intro f hf
    rcases List.mem_append.mp hf with hf | hf
    · exact h.sub f (by simp [hf])
    · exact hclosed g hg f (depthPush_sub hf).2
  · intro f k hf hk
    rw [hname] at hk
    split at hk
    · rename_i he
      have := hinj f g hf hg he
      subst this
      right
      refine ⟨by rw [hgo]; exact (Option.some.inj hk).symm, fun d hd => ⟨?_, .inl (by simp [hd])⟩⟩
      rw [hgo]
      obtain ⟨hp, hd'⟩ := depthPush_sub hd
      unfold depthStep
      simp only [hp, List.isEmpty_nil, if_true]
      exact lowerAll_dep _ _ hself _ _ (List.mem_map_of_mem hd')
    · rename_i he
      rcases h.done f k hf hk with hq | ⟨h1, h2⟩
      · rcases List.mem_cons.mp hq with rfl | hq
        · exact absurd rfl he
        · exact .inl (by simp [hq])
      · by_cases hm : f ∈ depthPush g
        · exact .inl (by simp [hm])
        · right
          rw [hoth f hf hm]
          refine ⟨h1, fun d hd => ?_⟩
          obtain ⟨h3, h4⟩ := h2 d hd
          refine ⟨Int.le_trans (hle _) h3, ?_⟩
          rcases h4 with h4 | ⟨k', h4⟩
          · rcases List.mem_cons.mp h4 with rfl | h4
            · right; exact ⟨s.order d.uniqueName, by rw [hname, if_pos rfl]⟩
            · left; simp [h4]
          · right
            rw [hname]
            split
            · exact ⟨_, rfl⟩
            · exact ⟨_, h4⟩

theorem depthLoop_inv (U : Feat → Prop) (hclosed : ∀ f, U f → ∀ d ∈ f.deps, U d)
    (hinj : ∀ a b, U a → U b → a.uniqueName = b.uniqueName → a = b) : ∀ (n : Nat) (q : List Feat) (s : DepthState),
    Feat.sizeList q ≤ n → DepthInv U q s → DepthInv U [] (depthLoop n q s) := by
  intro n
  induction n with
  | zero =>
    intro q s hn h
    cases q with
    | nil => simpa [depthLoop] using h
    | cons f q => have := f.size_pos; simp only [Feat.sizeList] at hn; omega
  | succ n ih =>
    intro q s hn h
    cases q with
    | nil => simpa [depthLoop] using h
    | cons f q =>
      rw [depthLoop]
      apply ih
      · have := depthPush_size f
        simp only [Feat.sizeList] at hn
        rw [Feat.sizeList_append]; omega
      · exact depthInv_step U hclosed hinj f q s h

theorem depthLoop_recorded : ∀ (n : Nat) (q : List Feat) (s : DepthState),
    Feat.sizeList q ≤ n → ∀ f, (f ∈ q ∨ (s.depths f.uniqueName).isSome) →
    ((depthLoop n q s).depths f.uniqueName).isSome := by
  intro n
  induction n with
  | zero =>
    intro q s hn f h
    cases q with
    | nil => simpa [depthLoop] using h
    | cons f q => have := f.size_pos; simp only [Feat.sizeList] at hn; omega
  | succ n ih =>
    intro q s hn f h
    cases q with
    | nil => simpa [depthLoop] using h
    | cons g q =>
      rw [depthLoop]
      apply ih
      · have := depthPush_size g
        simp only [Feat.sizeList] at hn
        rw [Feat.sizeList_append]; omega
      · have hname : ∀ n, (depthStep s g).depths n = if n = g.uniqueName then some (s.order g.uniqueName) else s.depths n := by
          intro n; unfold depthStep; split <;> rfl
        rw [hname]
        rcases h with h | h
        · rcases List.mem_cons.mp h with rfl | h
          · right; simp
          · left; simp [h]
        · right; split
          · rfl
          · exact h

theorem Uses.snoc {f g d : Feat} (h : Uses [] f g) (hd : d ∈ g.deps) : Uses [] f d := by
  induction h with
  | direct h h' => exact .deep h h' (.direct (Feat.mem_deps.mp hd) (by simp))
  | deep h h' _ ih => exact .deep h h' (ih hd)

theorem Uses.trans {f g d : Feat} (h : Uses [] f g) (hd : Uses [] g d) : Uses [] f d := by
  induction h with
  | direct h h' => exact .deep h h' hd
  | deep h h' _ ih => exact .deep h h' (ih hd)

theorem needed_closed (fs : List Feat) : ∀ f, NeededBy fs f → ∀ d ∈ f.deps, NeededBy fs d := by
  rintro f ⟨g, hg, h⟩ d hd
  refine ⟨g, hg, .inr ?_⟩
  rcases h with rfl | h
  · exact .direct (Feat.mem_deps.mp hd) (by simp)
  · exact Uses.snoc h hd

/-- All features of the list have a depth, and same-entity dependencies are strictly lower. -/
theorem featureDepths_spec (fs : List Feat) (hinj : NamesIdentify fs) :
    (∀ f ∈ fs, (featureDepths fs f.uniqueName).isSome) ∧
    ∀ f k, NeededBy fs f → featureDepths fs f.uniqueName = some k → ∀ d ∈ depthPush f,
      ∃ k', featureDepths fs d.uniqueName = some k' ∧ k' < k := by
  constructor
  · intro f hf
    exact depthLoop_recorded _ fs _ (Nat.le_refl _) f (.inl hf)
  · have hinit : DepthInv (NeededBy fs) fs ⟨fun _ => 0, fun _ => none⟩ :=
      ⟨fun f hf => ⟨f, hf, .inl rfl⟩, fun f k _ h => by cases h⟩
    have hfin := depthLoop_inv (NeededBy fs) (needed_closed fs) hinj _ fs _ (Nat.le_refl _) hinit
    intro f k hf hk d hd
    rcases hfin.done f k hf hk with h | ⟨h1, h2⟩
    · cases h
    · obtain ⟨h3, h4⟩ := h2 d hd
      rcases h4 with h4 | ⟨k', h4⟩
      · cases h4
      · refine ⟨k', h4, ?_⟩
        rcases hfin.done d k' (needed_closed fs f hf d (depthPush_sub hd).2) h4 with h5 | ⟨h5, _⟩
        · cases h5
        · omega

theorem sameEntity_lower (fs : List Feat) (hinj : NamesIdentify fs) {f d : Feat} (h : SameEntityDep f d) :
    NeededBy fs f → ∀ k, featureDepths fs f.uniqueName = some k →
      ∃ k', featureDepths fs d.uniqueName = some k' ∧ k' < k := by
  have hpush : ∀ {f d : Feat}, f.path = [] → d ∈ f.bases ∨ d ∈ f.wh → d ∈ depthPush f := by
    intro f d hp hd
    simp only [depthPush, hp, List.isEmpty_nil, if_true]
    exact Feat.mem_deps.mpr hd
  induction h with
  | direct hp hd =>
    intro hf k hk
    exact (featureDepths_spec fs hinj).2 _ k hf hk _ (hpush hp hd)
  | deep hp hd _ ih =>
    intro hf k hk
    obtain ⟨k1, hk1, hlt⟩ := (featureDepths_spec fs hinj).2 _ k hf hk _ (hpush hp hd)
    obtain ⟨k2, hk2, hlt2⟩ := ih (needed_closed fs _ hf _ (Feat.mem_deps.mpr hd)) k1 hk1
    exact ⟨k2, hk2, by omega⟩

/-! ## the groups -/

/-- The key used by `group_features`. -/
def fullKey (rels : List Relationship) (fs : List Feat) (f : Feat) : List (List Int) :=
  groupKey rels ((featureDepths fs f.uniqueName).getD 0) f

theorem groupFeatures_def (rels : List Relationship) (fs : List Feat) :
    groupFeatures rels fs = groupRuns (fullKey rels fs)
      (isort (fun a b => keyLe (fullKey rels fs a) (fullKey rels fs b)) fs) := rfl

theorem groupFeatures_sorted (rels : List Relationship) (fs : List Feat) :
    (groupFeatures rels fs).Pairwise fun g1 g2 => ∀ a ∈ g1, ∀ b ∈ g2,
      keyLe (fullKey rels fs a) (fullKey rels fs b) = true := by
  have h := isort_sorted (fun a b => keyLe (fullKey rels fs a) (fullKey rels fs b))
    (fun a b => by simpa using keyLe_total (fullKey rels fs a) (fullKey rels fs b))
    (fun a b c => keyLe_trans _ _ _) fs
  rw [← groupRuns_flatten (fullKey rels fs) (isort _ _), ← groupFeatures_def, List.pairwise_flatten] at h
  exact h.2

theorem groupFeatures_lt (rels : List Relationship) (fs : List Feat) {i j : Nat} {a b : Feat}
    (hi : InGroup (groupFeatures rels fs) i a) (hj : InGroup (groupFeatures rels fs) j b) (hlt : i < j) :
    keyLe (fullKey rels fs a) (fullKey rels fs b) = true := by
  obtain ⟨g1, h1, ha⟩ := hi
  obtain ⟨g2, h2, hb⟩ := hj
  obtain ⟨hi', rfl⟩ := List.getElem?_eq_some_iff.mp h1
  obtain ⟨hj', rfl⟩ := List.getElem?_eq_some_iff.mp h2
  exact List.pairwise_iff_getElem.mp (groupFeatures_sorted rels fs) i j hi' hj' hlt a ha b hb

theorem codes_inj {s t : String} (h : codes s = codes t) : s = t := by
  unfold codes at h
  have : s.toList = t.toList := by
    apply List.map_inj_right (f := fun c : Char => (c.toNat : Int)) (fun a b hab => ?_) |>.mp h
    have : a.toNat = b.toNat := by exact_mod_cast hab
    exact Char.toNat_inj.mp this
  exact String.toList_inj.mp this

end FT
