import Verif.Model.Chunk
import Verif.Lemmas.Query
import Verif.Lemmas.Sort
namespace FT

theorem chunkRows_flatten {α : Type} (k : Nat) (hk : 0 < k) : ∀ (n : Nat) (rows : List α), rows.length ≤ n * k →
    ((List.range n).map fun j => (rows.drop (j * k)).take k).flatten = rows := by
  intro n
  induction n with
  | zero => intro rows h; simp at h; simp [h]
  | succ n ih =>
    intro rows h
    rw [List.range_succ_eq_map, List.map_cons, List.map_map, List.flatten_cons]
    have : ((fun j => List.take k (List.drop (j * k) rows)) ∘ Nat.succ) =
        fun j => List.take k (List.drop (j * k) (rows.drop k)) := by
      funext j
      simp only [Function.comp, List.drop_drop]
      rw [Nat.succ_mul, Nat.add_comm]
    rw [this, ih (rows.drop k)]
    · simp
    · simp only [List.length_drop, Nat.succ_mul] at *; omega

theorem chunkRows_cover (n k : Nat) (hk : 0 < k) : n ≤ (n + k - 1) / k * k := by
  have := Nat.div_add_mod (n + k - 1) k
  have h2 := Nat.mod_lt (n + k - 1) hk
  rw [Nat.mul_comm] at this
  omega

theorem chunk_index_lt (n k j : Nat) (hk : 0 < k) (h : j < (n + k - 1) / k) : j * k < n := by
  have h1 : (j + 1) * k ≤ (n + k - 1) / k * k := Nat.mul_le_mul_right k h
  have h2 := Nat.div_mul_le_self (n + k - 1) k
  rw [Nat.succ_mul] at h1
  omega

theorem mem_chunkRows {α : Type} {k : Nat} {rows : List α} {cs : List (List α)} (h : chunkRows k rows = .ok cs)
    {c : List α} (hc : c ∈ cs) : c ≠ [] ∧ c.length ≤ k ∧ ∃ j, c = (rows.drop (j * k)).take k := by
  unfold chunkRows at h
  split at h
  · cases h
  · rename_i hk
    injection h with h
    subst h
    simp only [List.mem_map, List.mem_range] at hc
    obtain ⟨j, hj, rfl⟩ := hc
    have hk' : 0 < k := by omega
    have := chunk_index_lt _ _ _ hk' hj
    refine ⟨?_, by simp; omega, j, rfl⟩
    intro he
    have h1 := congrArg List.length he
    simp at h1
    omega

theorem chunkRows_ok_iff {α : Type} (k : Nat) (rows : List α) :
    (∃ cs, chunkRows k rows = .ok cs) ↔ 0 < k := by
  unfold chunkRows
  split
  · simp; omega
  · simp; omega

theorem flatten_chunkRows {α : Type} {k : Nat} {rows : List α} {cs : List (List α)} (h : chunkRows k rows = .ok cs) :
    cs.flatten = rows := by
  unfold chunkRows at h
  split at h
  · cases h
  · rename_i hk
    injection h with h
    subst h
    exact chunkRows_flatten k (by omega) _ _ (chunkRows_cover _ _ (by omega))

theorem chunkGroups_spec {κ α : Type} (k : Nat) (hk : 0 < k) (gs : List (κ × List α)) :
    ∃ out, chunkGroups k gs = .ok out ∧
      (∀ c ∈ out, c.2 ≠ [] ∧ c.2.length ≤ k ∧ ∃ g ∈ gs, c.1 = g.1 ∧ ∀ r ∈ c.2, r ∈ g.2) ∧
      (out.flatMap fun c => c.2.map fun r => (c.1, r)) = gs.flatMap fun g => g.2.map fun r => (g.1, r) := by
  induction gs with
  | nil => exact ⟨[], rfl, by simp, rfl⟩
  | cons g gs ih =>
    obtain ⟨key, rows⟩ := g
    obtain ⟨out, ho, h1, h2⟩ := ih
    obtain ⟨cs, hcs⟩ := (chunkRows_ok_iff k rows).mpr hk
    refine ⟨(cs.map fun c => (key, c)) ++ out, by simp [chunkGroups, hcs, ho, Except.map], ?_, ?_⟩
    · intro c hc
      rcases List.mem_append.mp hc with hc | hc
      · obtain ⟨c', hc', rfl⟩ := List.mem_map.mp hc
        obtain ⟨a, b, j, hj⟩ := mem_chunkRows hcs hc'
        refine ⟨a, b, (key, rows), by simp, rfl, ?_⟩
        intro r hr
        simp only [hj] at hr
        exact List.mem_of_mem_drop (List.mem_of_mem_take hr)
      · obtain ⟨a, b, g, hg, h⟩ := h1 c hc
        exact ⟨a, b, g, by simp [hg], h⟩
    · rw [List.flatMap_append, h2, List.flatMap_cons]
      congr 1
      have hf := flatten_chunkRows hcs
      simp only
      rw [List.flatMap_map]
      conv => rhs; rw [← hf]
      rw [List.map_flatten]
      rfl

theorem mem_sortedKeys (keys : List Int) (k : Int) : k ∈ sortedKeys keys ↔ k ∈ keys := by
  rw [sortedKeys, mem_isort, mem_dedup]

theorem nodup_sortedKeys (keys : List Int) : (sortedKeys keys).Nodup :=
  (isort_perm _ _).symm.nodup (nodup_dedup keys)

theorem sorted_sortedKeys (keys : List Int) : (sortedKeys keys).Pairwise (· < ·) := by
  have h1 : (sortedKeys keys).Pairwise (fun a b => decide (a ≤ b) = true) := by
    apply isort_sorted
    · intro a b; simp; omega
    · intro a b c; simp; omega
  have h2 := nodup_sortedKeys keys
  rw [List.Nodup] at h2
  refine (h1.and h2).imp ?_
  intro a b h
  simp at h
  omega

end FT
