import Verif.Model.Options
import Verif.Lemmas.Match
namespace FT
open FT.Spec

theorem picks_perm {α : Type} : ∀ {l : List α} {a : α} {rest : List α}, (a, rest) ∈ picks l → (a :: rest).Perm l
  | [], _, _, h => by simp [picks] at h
  | b :: l, a, rest, h => by
    simp only [picks, List.mem_cons, List.mem_map, Prod.mk.injEq, Prod.exists] at h
    rcases h with ⟨rfl, rfl⟩ | ⟨c, r, hc, rfl, rfl⟩
    · exact .refl _
    · exact (List.Perm.swap b c r).trans ((picks_perm hc).cons b)

theorem permsN_perm {α : Type} : ∀ {n : Nat} {l p : List α}, l.length = n → p ∈ permsN n l → p.Perm l
  | 0, l, p, hn, h => by
    simp only [permsN, List.mem_singleton] at h
    rw [List.length_eq_zero_iff.mp hn, h]
  | n + 1, l, p, hn, h => by
    simp only [permsN, List.mem_flatMap, List.mem_map, Prod.exists] at h
    obtain ⟨a, rest, hp, q, hq, rfl⟩ := h
    have h1 := picks_perm hp
    have h2 : rest.length = n := by have := h1.length_eq; simp at this; omega
    exact ((permsN_perm h2 hq).cons a).trans h1

theorem picks_complete {α : Type} : ∀ {l1 l2 : List α} {a : α}, (a, l1 ++ l2) ∈ picks (l1 ++ a :: l2)
  | [], l2, a => by simp [picks]
  | b :: l1, l2, a => by
    simp only [List.cons_append, picks, List.mem_cons, List.mem_map, Prod.mk.injEq, Prod.exists]
    exact .inr ⟨a, l1 ++ l2, picks_complete, rfl, rfl⟩

theorem permsN_complete {α : Type} : ∀ {n : Nat} {l p : List α}, l.length = n → p.Perm l → p ∈ permsN n l
  | 0, l, p, hn, h => by
    rw [List.length_eq_zero_iff.mp hn] at h
    simp [permsN, h.eq_nil]
  | n + 1, l, [], hn, h => by have := h.length_eq; simp [hn] at this
  | n + 1, l, a :: p, hn, h => by
    simp only [permsN, List.mem_flatMap, List.mem_map, Prod.exists]
    obtain ⟨l1, l2, rfl⟩ := List.append_of_mem (h.mem_iff.mp List.mem_cons_self)
    have h1 : p.Perm (l1 ++ l2) := List.Perm.cons_inv (h.trans List.perm_middle)
    have h2 : (l1 ++ l2).length = n := by simp at hn ⊢; omega
    exact ⟨a, l1 ++ l2, picks_complete, p, permsN_complete h2 h1, rfl⟩

theorem keepMatch_sound {sub : String → String → Bool} {os : List POption} {g c : Bool} {m t : List DFeat}
    (h : keepMatch sub os g c m = some t) : validMatch sub os g t = true ∧ t.Perm m ∧ (c = false → t = m) := by
  unfold keepMatch at h
  split at h
  · next hv => cases h; exact ⟨hv, .refl _, fun _ => rfl⟩
  · split at h
    · next hc =>
      refine ⟨List.find?_some h, permsN_perm rfl (List.mem_of_find?_eq_some h), fun e => ?_⟩
      rw [e] at hc; cases hc
    · cases h

theorem keepMatch_none {sub : String → String → Bool} {os : List POption} {g c : Bool} {m : List DFeat} :
    keepMatch sub os g c m = none ↔
      validMatch sub os g m = false ∧ (c = true → ∀ t : List DFeat, t.Perm m → validMatch sub os g t = false) := by
  unfold keepMatch
  constructor
  · intro h
    split at h
    · cases h
    · next hv =>
      refine ⟨by simpa using hv, fun hc t ht => ?_⟩
      rw [if_pos hc, List.find?_eq_none] at h
      simpa using h t (permsN_complete rfl ht)
  · rintro ⟨h1, h2⟩
    rw [if_neg (by simp [h1])]
    split
    · next hc =>
      rw [List.find?_eq_none]
      intro t ht
      simp [h2 hc t (permsN_perm rfl ht)]
    · rfl

theorem mem_filterMatches {sub : String → String → Bool} {os : List POption} {g c : Bool} {ms : List (List DFeat)} {t : List DFeat}
    (h : t ∈ filterMatches sub os g c ms) : validMatch sub os g t = true ∧ ∃ m ∈ ms, t.Perm m ∧ (c = false → t = m) := by
  unfold filterMatches at h
  have h1 := mem_of_dedupOn _ ((isort_perm _ _).mem_iff.mp h)
  obtain ⟨m, hm, hk⟩ := List.mem_filterMap.mp h1
  have := keepMatch_sound hk
  exact ⟨this.1, m, hm, this.2⟩

end FT
