import Verif.Model.Table
/-! Lemmas about the stable sort `isort`. -/
namespace FT

theorem insertBy_perm {α : Type} (le : α → α → Bool) (a : α) (l : List α) : (insertBy le a l).Perm (a :: l) := by
  induction l with
  | nil => exact .refl _
  | cons b bs ih =>
    unfold insertBy
    split
    · exact .refl _
    · exact (List.Perm.cons b ih).trans (.swap a b bs)

theorem isort_perm {α : Type} (le : α → α → Bool) (l : List α) : (isort le l).Perm l := by
  induction l with
  | nil => exact .refl _
  | cons a as ih => exact (insertBy_perm le a _).trans (.cons a ih)

theorem mem_isort {α : Type} (le : α → α → Bool) (l : List α) (a : α) : a ∈ isort le l ↔ a ∈ l :=
  (isort_perm le l).mem_iff

theorem insertBy_sorted {α : Type} (le : α → α → Bool) (total : ∀ a b, le a b = true ∨ le b a = true)
    (trans : ∀ a b c, le a b = true → le b c = true → le a c = true) (a : α) (l : List α)
    (h : l.Pairwise (fun x y => le x y = true)) : (insertBy le a l).Pairwise (fun x y => le x y = true) := by
  induction l with
  | nil => simp [insertBy]
  | cons b bs ih =>
    unfold insertBy
    simp only [List.pairwise_cons] at h
    split
    · rename_i hab
      simp only [List.pairwise_cons, List.mem_cons]
      refine ⟨?_, h⟩
      rintro c (rfl | hc)
      · exact hab
      · exact trans _ _ _ hab (h.1 c hc)
    · rename_i hab
      simp only [List.pairwise_cons]
      refine ⟨?_, ih h.2⟩
      intro c hc
      rcases List.mem_cons.mp ((insertBy_perm le a bs).mem_iff.mp hc) with rfl | hc
      · rcases total b c with h' | h'
        · exact h'
        · exact absurd h' hab
      · exact h.1 c hc

theorem isort_sorted {α : Type} (le : α → α → Bool) (total : ∀ a b, le a b = true ∨ le b a = true)
    (trans : ∀ a b c, le a b = true → le b c = true → le a c = true) (l : List α) :
    (isort le l).Pairwise (fun x y => le x y = true) := by
  induction l with
  | nil => exact .nil
  | cons a as ih => exact insertBy_sorted le total trans a _ ih

/-- An already sorted list is left alone. -/
theorem isort_of_sorted {α : Type} (le : α → α → Bool) (l : List α)
    (h : l.Pairwise (fun x y => le x y = true)) : isort le l = l := by
  induction l with
  | nil => rfl
  | cons a as ih =>
    simp only [List.pairwise_cons] at h
    simp only [isort, ih h.2]
    cases as with
    | nil => rfl
    | cons b bs => simp [insertBy, h.1 b (by simp)]

theorem insertBy_filter {α : Type} (le : α → α → Bool) (trans : ∀ a b c, le a b = true → le b c = true → le a c = true)
    (p : α → Bool) (a : α) (l : List α)
    (h : l.Pairwise (fun x y => le x y = true)) :
    (insertBy le a l).filter p = if p a then insertBy le a (l.filter p) else l.filter p := by
  induction l with
  | nil => by_cases hp : p a <;> simp [insertBy, hp]
  | cons b bs ih =>
    simp only [List.pairwise_cons] at h
    have ih := ih h.2
    unfold insertBy
    by_cases hab : le a b
    · simp only [hab, if_true]
      by_cases hp : p a
      · simp only [List.filter_cons, hp, if_true]
        by_cases hb : p b
        · simp [hb, insertBy, hab]
        · simp only [hb, Bool.false_eq_true, if_false]
          -- every remaining element is above `a`
          have : ∀ c ∈ bs.filter p, le a c = true := fun c hc => trans _ _ _ hab (h.1 c (List.mem_filter.mp hc).1)
          cases hbs : bs.filter p with
          | nil => rfl
          | cons c cs => rw [hbs] at this; simp [insertBy, this c (by simp)]
      · simp [List.filter_cons, hp]
    · simp only [hab, Bool.false_eq_true, if_false]
      by_cases hp : p a
      · by_cases hb : p b
        · simp [List.filter_cons, hb, ih, hp, insertBy, hab]
        · rw [List.filter_cons, if_neg hb, ih, if_pos hp, if_pos hp, List.filter_cons, if_neg hb]
          cases bs.filter p <;> rfl
      · by_cases hb : p b <;> simp [List.filter_cons, hb, ih, hp]

/-- Sorting commutes with filtering: the sort is stable. -/
theorem isort_filter {α : Type} (le : α → α → Bool) (total : ∀ a b, le a b = true ∨ le b a = true)
    (trans : ∀ a b c, le a b = true → le b c = true → le a c = true)
    (p : α → Bool) (l : List α) : (isort le l).filter p = isort le (l.filter p) := by
  induction l with
  | nil => rfl
  | cons a as ih =>
    simp only [isort, insertBy_filter le trans p a _ (isort_sorted le total trans as), ih, List.filter_cons]
    by_cases hp : p a <;> simp [hp, isort]

/-- Two sorted permutations of one list are equal when the order is antisymmetric on it. -/
theorem sorted_perm_eq {α : Type} {le : α → α → Bool} {l₁ l₂ : List α}
    (h₁ : l₁.Pairwise (fun x y => le x y = true)) (h₂ : l₂.Pairwise (fun x y => le x y = true))
    (hp : l₁.Perm l₂) (anti : ∀ a ∈ l₁, ∀ b ∈ l₁, le a b = true → le b a = true → a = b) : l₁ = l₂ :=
  hp.eq_of_pairwise (le := fun x y => le x y = true) (fun a b ha hb => anti a ha b (hp.mem_iff.mpr hb)) h₁ h₂

theorem isort_perm_eq {α : Type} {le : α → α → Bool} (total : ∀ a b, le a b = true ∨ le b a = true)
    (trans : ∀ a b c, le a b = true → le b c = true → le a c = true) {l₁ l₂ : List α} (hp : l₁.Perm l₂)
    (anti : ∀ a ∈ l₁, ∀ b ∈ l₁, le a b = true → le b a = true → a = b) : isort le l₁ = isort le l₂ := by
  refine sorted_perm_eq (isort_sorted le total trans l₁) (isort_sorted le total trans l₂)
    (((isort_perm le l₁).trans hp).trans (isort_perm le l₂).symm) ?_
  intro a ha b hb
  exact anti a ((mem_isort _ _ _).mp ha) b ((mem_isort _ _ _).mp hb)

end FT
