import Verif.Lemmas.Trie
/-!
# C20: a trie behaves as a dictionary keyed by paths
-/
namespace FT
open FT.Spec Trie

variable {κ ν : Type} [DecidableEq κ]

/-- C20. After any history of reads and assignments, reading the value at any
path gives the value last assigned there, or the default. -/
theorem C20_read_last_assigned (dflt : ν) (ops : List (Trie.Op κ ν)) (path : List κ) :
    (Trie.nodeAt dflt path (Trie.run dflt ops)).value = lastAssigned dflt path ops :=
  nodeAt_value_run dflt ops path

/-- C20. Iteration yields exactly the root and the prefixes of the paths named so
far, each with its current value. -/
theorem C20_iteration_exact (dflt : ν) (ops : List (Trie.Op κ ν)) (path : List κ) (v : ν) :
    (path, v) ∈ (Trie.run dflt ops).toList ↔ Touched path ops ∧ v = lastAssigned dflt path ops := by
  rw [mem_toList path _ v (WF_run dflt ops), lookup?_run]

/-- C20. Iteration yields no path twice, and never a path after one of its
extensions (parents before children). -/
theorem C20_iteration_order (dflt : ν) (ops : List (Trie.Op κ ν)) :
    (Trie.run dflt ops).toList.Pairwise (fun a b => ¬ b.1 <+: a.1) :=
  preorder_toList _ (WF_run dflt ops)

theorem C20_iteration_once (dflt : ν) (ops : List (Trie.Op κ ν)) :
    ((Trie.run dflt ops).toList.map Prod.fst).Nodup := by
  rw [List.Nodup, List.pairwise_map]
  refine (C20_iteration_order dflt ops).imp ?_
  intro a b h e
  exact h (e ▸ List.prefix_refl _)

/-- Non-vacuity: the docstring example of `Trie`. -/
example : (Trie.run "" [.set [1, 2, 3] "123", .get [1, 2], .set [3] "3", .set [1, 2, 3] "updated"]).toList
    = [([], ""), ([1], ""), ([1, 2], ""), ([1, 2, 3], "updated"), ([3], "3")] := by decide

end FT
