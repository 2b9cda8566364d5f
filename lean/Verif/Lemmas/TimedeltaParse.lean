import Verif.Lemmas.Timedelta
import Verif.Spec.Timedelta
namespace FT.Timedelta
open FT.Spec

theorem isDigitC_iff (c : Char) : isDigitC c = true ↔ '0' ≤ c ∧ c ≤ '9' := by
  simp only [isDigitC, Bool.and_eq_true, decide_eq_true_eq, Char.le_def, UInt32.le_iff_toNat_le]
  rfl

theorem isAlphaC_iff (c : Char) : isAlphaC c = true ↔ ('a' ≤ c ∧ c ≤ 'z') ∨ ('A' ≤ c ∧ c ≤ 'Z') := by
  simp only [isAlphaC, Bool.or_eq_true, Bool.and_eq_true, decide_eq_true_eq, Char.le_def, UInt32.le_iff_toNat_le]
  rw [or_comm]; rfl

theorem span_append {α} (p : α → Bool) (a b : List α) (ha : ∀ x ∈ a, p x = true)
    (hb : ∀ x, b.head? = some x → p x = false) :
    (a ++ b).takeWhile p = a ∧ (a ++ b).dropWhile p = b := by
  induction a with
  | nil =>
    cases b with
    | nil => simp
    | cons y b => have := hb y rfl; simp [this]
  | cons x a ih =>
    have hx := ha x (by simp)
    have := ih (fun y hy => ha y (by simp [hy]))
    simp [hx, this]

theorem dropWhile_space (s : List Char) : ∃ k, s = List.replicate k ' ' ++ s.dropWhile (· == ' ') := by
  induction s with
  | nil => exact ⟨0, rfl⟩
  | cons c s ih =>
    by_cases h : c = ' '
    · obtain ⟨k, hk⟩ := ih
      refine ⟨k + 1, ?_⟩
      subst h
      simp only [List.dropWhile_cons, beq_self_eq_true, if_true, List.replicate_succ, List.cons_append]
      rw [← hk]
    · exact ⟨0, by simp [h]⟩

theorem mem_takeWhile {α} (p : α → Bool) (l : List α) (x : α) (h : x ∈ l.takeWhile p) : p x = true := by
  induction l with
  | nil => simp at h
  | cons a l ih =>
    rw [List.takeWhile_cons] at h
    split at h
    · rcases List.mem_cons.mp h with rfl | h
      · assumption
      · exact ih h
    · simp at h

theorem scan_ok_iff (s : List Char) (n : Nat) (u : String) :
    scan s = .ok (n, u) ↔ ∃ ds k us, ReadsAs s ds k us ∧ n = Nat.ofDigitChars 10 ds 0 ∧ u = String.ofList us := by
  constructor
  · intro h
    unfold scan at h
    simp only at h
    split at h
    · rename_i hc
      simp only [Bool.and_eq_true, Bool.not_eq_true', Bool.or_eq_true, beq_iff_eq] at hc
      obtain ⟨⟨h1, h2⟩, h3⟩ := hc
      injection h with h
      simp only [Prod.mk.injEq] at h
      obtain ⟨k, hk⟩ := dropWhile_space (s.dropWhile isDigitC)
      have hs : s = s.takeWhile isDigitC ++ (List.replicate k ' ' ++
          (((s.dropWhile isDigitC).dropWhile (· == ' ')).takeWhile isAlphaC ++
           ((s.dropWhile isDigitC).dropWhile (· == ' ')).dropWhile isAlphaC)) := by
        rw [List.takeWhile_append_dropWhile, ← hk, List.takeWhile_append_dropWhile]
      refine ⟨_, k, _, ⟨?_, ?_, ?_, ?_, ?_⟩, h.1.symm, h.2.symm⟩
      · rcases h3 with h3 | h3
        · left; rw [h3, List.append_nil] at hs; simpa using hs
        · right; rw [h3] at hs; simpa using hs
      · simpa using h1
      · intro c hc; exact (isDigitC_iff c).mp (mem_takeWhile _ _ _ hc)
      · simpa using h2
      · intro c hc; exact (isAlphaC_iff c).mp (mem_takeWhile _ _ _ hc)
    · cases h
  · rintro ⟨ds, k, us, ⟨hs, hd1, hd2, hu1, hu2⟩, hn, hu⟩
    obtain ⟨tl, htl, hs⟩ : ∃ tl, (tl = [] ∨ tl = ['\n']) ∧ s = ds ++ (List.replicate k ' ' ++ (us ++ tl)) := by
      rcases hs with hs | hs
      · exact ⟨[], .inl rfl, by simp [hs]⟩
      · exact ⟨['\n'], .inr rfl, by simp [hs]⟩
    have hdig : ∀ c ∈ ds, isDigitC c = true := fun c hc => (isDigitC_iff c).mpr (hd2 c hc)
    have halp : ∀ c ∈ us, isAlphaC c = true := fun c hc => (isAlphaC_iff c).mpr (hu2 c hc)
    obtain ⟨u0, us', rfl⟩ : ∃ u0 us', us = u0 :: us' := by
      cases us with
      | nil => exact absurd rfl hu1
      | cons a b => exact ⟨a, b, rfl⟩
    have hu0 : isAlphaC u0 = true := halp u0 (by simp)
    have hu0s : (u0 == ' ') = false := by
      by_cases h : u0 = ' '
      · subst h; revert hu0; decide
      · simpa using h
    have hu0d : isDigitC u0 = false := by
      cases h : isDigitC u0 with
      | false => rfl
      | true =>
        simp only [isDigitC, isAlphaC, Bool.and_eq_true, Bool.or_eq_true, decide_eq_true_eq] at h hu0; omega
    obtain ⟨t1, d1⟩ := span_append isDigitC ds (List.replicate k ' ' ++ (u0 :: us' ++ tl)) hdig (by
      intro x hx
      cases k with
      | zero => simp at hx; rw [← hx]; exact hu0d
      | succ k => simp [List.replicate_succ] at hx; subst hx; decide)
    obtain ⟨_, d2⟩ := span_append (· == ' ') (List.replicate k ' ') (u0 :: us' ++ tl) (by
      intro x hx; simp at hx; simp [hx.2]) (by intro x hx; simp at hx; subst hx; exact hu0s)
    obtain ⟨t3, d3⟩ := span_append isAlphaC (u0 :: us') tl halp (by
      intro x hx
      rcases htl with rfl | rfl
      · simp at hx
      · simp at hx; subst hx; decide)
    unfold scan
    simp only
    rw [hs, t1, d1, d2, t3, d3]
    have : (!ds.isEmpty && !(u0 :: us').isEmpty && (tl == [] || tl == ['\n'])) = true := by
      cases ds with
      | nil => exact absurd rfl hd1
      | cons a b => rcases htl with rfl | rfl <;> rfl
    rw [if_pos this, hn, hu]

end FT.Timedelta
