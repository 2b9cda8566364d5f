import Verif.Lemmas.Progress
import Verif.Lemmas.Cfm
/-!
# How much is reported
-/
namespace FT
open Watched

/-- The sum of a list of amounts. -/
def tsum : List Rat → Rat
  | [] => 0
  | x :: xs => x + tsum xs

theorem tsum_append (a b : List Rat) : tsum (a ++ b) = tsum a + tsum b := by
  induction a with
  | nil => simp only [List.nil_append, tsum]; grind
  | cons x a ih => simp only [List.cons_append, tsum, ih]; grind

theorem tsum_nonneg {l : List Rat} (h : ∀ x ∈ l, 0 ≤ x) : 0 ≤ tsum l := by
  induction l with
  | nil => exact Rat.le_refl
  | cons a l ih =>
    have h1 := h a (by simp)
    have h2 := ih fun x hx => h x (by simp [hx])
    simp only [tsum]; grind

theorem tsum_scale (r : Rat) (l : List Rat) : tsum (l.map fun x => x * r) = tsum l * r := by
  induction l with
  | nil => simp only [List.map_nil, tsum]; grind
  | cons x l ih => simp only [List.map_cons, tsum, ih]; grind

theorem foldl_tsum (l : List Rat) (n : Rat) : l.foldl (· + ·) n = n + tsum l := by
  induction l generalizing n with
  | nil => simp only [List.foldl_nil, tsum]; grind
  | cons x l ih => simp only [List.foldl_cons, tsum, ih]; grind

theorem tsum_const {α : Type} (c : Rat) (l : List α) : tsum (l.map fun _ => c) = l.length * c := by
  induction l with
  | nil => simp only [List.map_nil, tsum, List.length_nil]; grind
  | cons x l ih => simp only [List.map_cons, tsum, ih, List.length_cons]; grind

/-- No amount is negative and together they are at most `b`. -/
def Watched.Within {α : Type} (m : Watched α) (b : Rat) : Prop := (∀ x ∈ m.ticks, 0 ≤ x) ∧ tsum m.ticks ≤ b

namespace Watched

theorem Within.mono {α : Type} {m : Watched α} {a b : Rat} (h : m.Within a) (hab : a ≤ b) : m.Within b :=
  ⟨h.1, Rat.le_trans h.2 hab⟩

theorem within_quiet {α : Type} (x : Except PyErr α) {b : Rat} (hb : 0 ≤ b) : (quiet x).Within b :=
  ⟨by simp [quiet], hb⟩

theorem within_after {α : Type} (x : Except PyErr α) {l : List Rat} {b : Rat} (hl : ∀ y ∈ l, 0 ≤ y) (hs : tsum l ≤ b) :
    (after x l).Within b := by
  cases x with
  | ok a => exact ⟨hl, hs⟩
  | error e => exact ⟨by simp [after], Rat.le_trans (tsum_nonneg hl) hs⟩

theorem within_bind {α β : Type} {m : Watched α} {k : α → Watched β} {a b : Rat} (hb : 0 ≤ b) (hm : m.Within a)
    (hk : ∀ x, m.out = .ok x → (k x).Within b) : (m.bind k).Within (a + b) := by
  unfold bind
  cases ho : m.out with
  | error e => exact ⟨hm.1, by have := hm.2; show tsum m.ticks ≤ a + b; grind⟩
  | ok x =>
    have h := hk x ho
    refine ⟨?_, ?_⟩
    · intro y hy
      rcases List.mem_append.mp hy with h' | h'
      · exact hm.1 y h'
      · exact h.1 y h'
    · show tsum (m.ticks ++ (k x).ticks) ≤ a + b
      rw [tsum_append]
      have := hm.2
      have := h.2
      grind

theorem within_quiet_bind {α β : Type} {x : Except PyErr α} {k : α → Watched β} {b : Rat} (hb : 0 ≤ b)
    (hk : ∀ a, x = .ok a → (k a).Within b) : ((quiet x).bind k).Within b := by
  have := within_bind (m := quiet x) (k := k) hb (within_quiet x (Rat.le_refl (a := 0))) hk
  rwa [show (0 : Rat) + b = b from by grind] at this

theorem within_bind_quiet {α β : Type} {m : Watched α} {k : α → Except PyErr β} {b : Rat} (hm : m.Within b) :
    (m.bind fun a => quiet (k a)).Within b := by
  have := within_bind (k := fun a => quiet (k a)) (Rat.le_refl (a := 0)) hm fun x _ => within_quiet _ (Rat.le_refl (a := 0))
  rwa [show b + (0 : Rat) = b from by grind] at this

theorem within_scale {α : Type} {m : Watched α} {b r : Rat} (hr : 0 ≤ r) (h : m.Within b) : (m.scale r).Within (b * r) := by
  refine ⟨?_, ?_⟩
  · intro y hy
    obtain ⟨x, hx, rfl⟩ := List.mem_map.mp hy
    exact Rat.mul_nonneg (h.1 x hx) hr
  · show tsum (m.ticks.map fun x => x * r) ≤ b * r
    rw [tsum_scale]
    exact Rat.mul_le_mul_of_nonneg_right h.2 hr

end Watched

theorem rat_le_of_eq {a b : Rat} (h : a = b) : a ≤ b := h ▸ Rat.le_refl

theorem share_nonneg (k n : Nat) : (0 : Rat) ≤ (k : Rat) / n := by
  rw [Rat.div_def]
  refine Rat.mul_nonneg (by exact_mod_cast Nat.zero_le k) ?_
  by_cases h : n = 0
  · subst h; decide +kernel
  · have hp : (0 : Rat) < n := by exact_mod_cast Nat.pos_of_ne_zero h
    exact Rat.le_of_lt (Rat.inv_pos.mpr hp)

theorem share_add (a b n : Nat) : ((a + b : Nat) : Rat) / n = (a : Rat) / n + (b : Rat) / n := by
  rw [Rat.div_def, Rat.div_def, Rat.div_def, show ((a + b : Nat) : Rat) = (a : Rat) + b from by exact_mod_cast rfl, Rat.add_mul]

theorem part_mono {a b : Nat} (h : a ≤ b) (n : Nat) : (a : Rat) / n ≤ (b : Rat) / n := by
  obtain ⟨c, rfl⟩ := Nat.exists_eq_add_of_le h
  rw [share_add]
  have := share_nonneg c n
  grind

theorem share_one (k n : Nat) : (k : Rat) * (1 / n) = (k : Rat) / n := by
  rw [Rat.div_def, Rat.div_def, Rat.one_mul]

theorem share_all (n : Nat) : (n : Rat) / n ≤ 1 := by
  by_cases h : (n : Rat) = 0
  · rw [h]; decide +kernel
  · rw [Rat.div_def, Rat.mul_inv_cancel _ h]; exact Rat.le_refl

end FT
