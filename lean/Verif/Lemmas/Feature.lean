import Verif.Spec.Feature
namespace FT
open Spec

@[simp] theorem Feat.info_mk (i b w) : (Feat.mk i b w).info = i := rfl
@[simp] theorem Feat.bases_mk (i b w) : (Feat.mk i b w).bases = b := rfl
@[simp] theorem Feat.wh_mk (i b w) : (Feat.mk i b w).wh = w := rfl

theorem Feat.mem_deps {f d : Feat} : d ∈ f.deps ↔ d ∈ f.bases ∨ d ∈ f.wh := by simp [Feat.deps]

theorem Feat.size_le_sizeList {d : Feat} : ∀ {l : List Feat}, d ∈ l → d.size ≤ Feat.sizeList l
  | [], h => by cases h
  | e :: l, h => by
    rcases List.mem_cons.mp h with rfl | h
    · simp [Feat.sizeList]
    · have := Feat.size_le_sizeList h; simp only [Feat.sizeList]; omega

theorem Feat.size_dep {f d : Feat} (h : d ∈ f.deps) : d.size < f.size := by
  cases f with
  | mk i b w =>
    rw [Feat.mem_deps] at h
    simp only [Feat.size, Feat.bases_mk, Feat.wh_mk] at *
    rcases h with h | h
    · have := Feat.size_le_sizeList h; omega
    · have := Feat.size_le_sizeList h; omega

theorem Feat.size_pos (f : Feat) : 0 < f.size := by cases f; simp [Feat.size]; omega

theorem mem_deepDepsList (ign : List String) (g : Feat) : ∀ l : List Feat,
    g ∈ deepDepsList ign l ↔ ∃ d ∈ l, d.uniqueName ∉ ign ∧ g ∈ deepDeps ign d
  | [] => by simp [deepDepsList]
  | e :: l => by
    simp only [deepDepsList, List.mem_append, mem_deepDepsList ign g l, List.mem_cons]
    by_cases h : e.uniqueName ∈ ign <;> simp [h, or_and_right, exists_or]

theorem mem_deepDeps_iff (ign : List String) (f g : Feat) :
    g ∈ deepDeps ign f ↔ (g ∈ f.deps ∧ g.uniqueName ∉ ign) ∨
      ∃ d ∈ f.deps, d.uniqueName ∉ ign ∧ g ∈ deepDeps ign d := by
  cases f with
  | mk i b w =>
    rw [deepDeps]
    simp only [List.mem_append, List.mem_filter, mem_deepDepsList, Feat.mem_deps, Feat.bases_mk, Feat.wh_mk,
      Bool.not_eq_true', List.contains_eq_mem, decide_eq_false_iff_not]
    constructor
    · rintro (h | ⟨d, h, h'⟩ | ⟨d, h, h'⟩)
      · exact .inl h
      · exact .inr ⟨d, .inl h, h'⟩
      · exact .inr ⟨d, .inr h, h'⟩
    · rintro (h | ⟨d, h | h, h'⟩)
      · exact .inl h
      · exact .inr (.inl ⟨d, h, h'⟩)
      · exact .inr (.inr ⟨d, h, h'⟩)

theorem mem_deepDeps (ign : List String) (f g : Feat) : g ∈ deepDeps ign f ↔ Uses ign f g := by
  constructor
  · generalize hn : f.size = n
    induction n using Nat.strongRecOn generalizing f with
    | _ n ih =>
      intro h
      rw [mem_deepDeps_iff] at h
      rcases h with ⟨h, h'⟩ | ⟨d, h, h', h''⟩
      · exact .direct (Feat.mem_deps.mp h) h'
      · exact .deep (Feat.mem_deps.mp h) h' (ih d.size (hn ▸ Feat.size_dep h) d rfl h'')
  · intro h
    induction h with
    | direct h h' => exact (mem_deepDeps_iff ..).mpr (.inl ⟨Feat.mem_deps.mpr h, h'⟩)
    | deep h h' _ ih => exact (mem_deepDeps_iff ..).mpr (.inr ⟨_, Feat.mem_deps.mpr h, h', ih⟩)

theorem Uses.size_lt {ign f g} (h : Uses ign f g) : g.size < f.size := by
  induction h with
  | direct h _ => exact Feat.size_dep (Feat.mem_deps.mpr h)
  | deep h _ _ ih => exact Nat.lt_trans ih (Feat.size_dep (Feat.mem_deps.mpr h))

theorem Uses.not_ignored {ign f g} (h : Uses ign f g) : g.uniqueName ∉ ign := by
  induction h with
  | direct _ h => exact h
  | deep _ _ _ ih => exact ih

theorem foldl_max_acc {α : Type} (a : α → Nat) (l : List α) (m : Nat) :
    l.foldl (fun m d => max (a d) m) m = max (l.foldl (fun m d => max (a d) m) 0) m := by
  induction l generalizing m with
  | nil => simp
  | cons x l ih => simp only [List.foldl_cons]; rw [ih, ih (max (a x) 0)]; omega

theorem isMax_foldl {α : Type} (a : α → Nat) (l : List α) :
    IsMax a l (l.foldl (fun m d => max (a d) m) 0) := by
  induction l with
  | nil => simp [IsMax]
  | cons x l ih =>
    simp only [List.foldl_cons]
    rw [foldl_max_acc]
    obtain ⟨h1, h2⟩ := ih
    refine ⟨fun d hd => ?_, .inr ?_⟩
    · rcases List.mem_cons.mp hd with rfl | hd
      · omega
      · have := h1 d hd; omega
    · rcases h2 with ⟨rfl, h0⟩ | ⟨d, hd, h0⟩
      · exact ⟨x, by simp, by simp⟩
      · by_cases hx : a x ≤ l.foldl (fun m d => max (a d) m) 0
        · exact ⟨d, by simp [hd], by omega⟩
        · exact ⟨x, by simp, by omega⟩

theorem foldl_max_congr {α : Type} (a b : α → Nat) (l : List α) (m : Nat) (h : ∀ d ∈ l, a d = b d) :
    l.foldl (fun m d => max (a d) m) m = l.foldl (fun m d => max (b d) m) m := by
  induction l generalizing m with
  | nil => rfl
  | cons x l ih =>
    simp only [List.foldl_cons]
    rw [h x (by simp), ih _ (fun d hd => h d (by simp [hd]))]

theorem getDepthFuel_stable (stop : List String) : ∀ (n m : Nat) (f : Feat), f.size ≤ n → f.size ≤ m →
    getDepthFuel stop n f = getDepthFuel stop m f := by
  intro n
  induction n with
  | zero => intro m f h; have := f.size_pos; omega
  | succ n ih =>
    intro m f h h'
    cases m with
    | zero => have := f.size_pos; omega
    | succ m =>
      rw [getDepthFuel, getDepthFuel]
      split
      · rfl
      split
      · rfl
      congr 1
      apply foldl_max_congr
      intro d hd
      have := Uses.size_lt ((mem_deepDeps ..).mp hd)
      exact ih m d (by omega) (by omega)

/-- The recursion bound is never reached. -/
theorem getDepth_unfold (stop : List String) (f : Feat) :
    getDepth stop f = if f.isIdentity then 0 else if stop.contains f.uniqueName then 0
      else (deepDeps stop f).foldl (fun m d => max (getDepth stop d) m) 0 + 1 := by
  unfold getDepth
  obtain ⟨k, hk⟩ : ∃ k, f.size = k + 1 := ⟨f.size - 1, by have := f.size_pos; omega⟩
  rw [hk, getDepthFuel]
  split
  · rfl
  split
  · rfl
  congr 1
  apply foldl_max_congr
  intro d hd
  have := Uses.size_lt ((mem_deepDeps ..).mp hd)
  exact getDepthFuel_stable stop k d.size d (by omega) (Nat.le_refl _)

end FT
