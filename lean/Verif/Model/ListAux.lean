/-! List facts used by the termination arguments of the model. -/
namespace FT

theorem filter_length_le {α : Type} {p q : α → Bool} (h : ∀ x, q x = true → p x = true) (l : List α) :
    (l.filter q).length ≤ (l.filter p).length := by
  induction l with
  | nil => simp
  | cons a t ih =>
    simp only [List.filter_cons]
    by_cases hq : q a = true
    · simp [hq, h a hq, ih]
    · by_cases hp : p a = true
      · simp only [hq, hp]; simp; omega
      · simpa [hq, hp] using ih

theorem filter_length_lt {α : Type} {p q : α → Bool} (h : ∀ x, q x = true → p x = true) {l : List α} {a : α}
    (ha : a ∈ l) (hp : p a = true) (hq : q a = false) :
    (l.filter q).length < (l.filter p).length := by
  induction l with
  | nil => cases ha
  | cons b t ih =>
    have hle := filter_length_le h t
    simp only [List.filter_cons]
    rcases List.mem_cons.mp ha with rfl | hm
    · simp [hp, hq]; omega
    · have := ih hm
      by_cases hqb : q b = true
      · simp [hqb, h b hqb, this]
      · by_cases hpb : p b = true
        · simp only [hqb, hpb]; simp; omega
        · simpa [hqb, hpb] using this

end FT
