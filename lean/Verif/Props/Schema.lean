import Verif.Lemmas.Schema
/-!
# Properties C01-C03: path enumeration

The theorems relate `findForwardPaths`, `findBackwardPaths`, `hasUniqueForwardPath` and the deep entity generators to
`Spec.Chain` (a list of relationships leading from a child entity up to an ancestor), for every relationship list.
-/
namespace FT
open Spec

/-- A small diamond with a parallel relationship and a self loop, used to show hypotheses are satisfiable. -/
def demoRels : List Relationship :=
  [⟨"cust", "id", "sess", "cust_id"⟩, ⟨"sess", "id", "tx", "sess_id"⟩, ⟨"cust", "id", "tx", "payer"⟩,
   ⟨"cust", "id", "tx", "payee"⟩, ⟨"cust", "id", "cust", "ref"⟩]

/-- C01: `find_forward_paths(a, b)` yields exactly the relationship chains from `a` to `b` that visit no entity twice. -/
theorem C01_forward_paths_exact (rels : List Relationship) (a b : String) (p : List Relationship) :
    p ∈ findForwardPaths rels a b ↔ Chain rels a b p ∧ (visited a p).Nodup :=
  mem_findForwardPaths

/-- C01: each path is yielded once when the relationship list has no duplicates. -/
theorem C01_forward_paths_once (rels : List Relationship) (h : rels.Nodup) (a b : String) :
    (findForwardPaths rels a b).Nodup :=
  nodup_findForwardPaths h a b

example : demoRels.Nodup := by decide

/-- C02: backward paths are exactly the reversals of the simple chains from `goal` up to `start`. -/
theorem C02_backward_paths_exact (rels : List Relationship) (start goal : String) (p : List Relationship) :
    p ∈ findBackwardPaths rels start goal ↔
      Chain rels goal start p.reverse ∧ (visited goal p.reverse).Nodup := by
  unfold findBackwardPaths
  rw [← C01_forward_paths_exact, List.mem_map]
  constructor
  · rintro ⟨q, hq, rfl⟩; simpa using hq
  · intro h; exact ⟨p.reverse, h, by simp⟩

/-- C02: `has_unique_forward_path` raises iff there is no simple chain. -/
theorem C02_unique_path_raises (rels : List Relationship) (a b : String) :
    hasUniqueForwardPath rels a b = .error .stopIteration ↔ ¬ ∃ p, SimpleChain rels a b p := by
  unfold hasUniqueForwardPath
  rw [show (∃ p, SimpleChain rels a b p) ↔ ∃ p, p ∈ findForwardPaths rels a b by
    simp only [mem_findForwardPaths]]
  match h : findForwardPaths rels a b with
  | [] => simp
  | [p] => simp
  | p :: q :: t => simp

/-- C02: it returns `True` iff there is exactly one simple chain. -/
theorem C02_unique_path_true (rels : List Relationship) (hn : rels.Nodup) (a b : String) :
    hasUniqueForwardPath rels a b = .ok true ↔ ∃ p, SimpleChain rels a b p ∧ ∀ q, SimpleChain rels a b q → q = p := by
  unfold hasUniqueForwardPath
  simp only [← mem_findForwardPaths]
  have hnd := nodup_findForwardPaths hn a b
  match h : findForwardPaths rels a b with
  | [] => simp
  | [p] => simp
  | p :: q :: t =>
    have hq := findForwardPaths_second_nonempty h
    rw [h] at hnd
    constructor
    · intro he; simp [hq] at he
    · rintro ⟨u, _, hu⟩
      have h1 := hu p (by simp)
      have h2 := hu q (by simp)
      simp [h1, h2] at hnd

/-- C02: it returns `False` iff there are two different simple chains. -/
theorem C02_unique_path_false (rels : List Relationship) (hn : rels.Nodup) (a b : String) :
    hasUniqueForwardPath rels a b = .ok false ↔
      ∃ p q, p ≠ q ∧ SimpleChain rels a b p ∧ SimpleChain rels a b q := by
  unfold hasUniqueForwardPath
  simp only [← mem_findForwardPaths]
  have hnd := nodup_findForwardPaths hn a b
  match h : findForwardPaths rels a b with
  | [] => simp
  | [p] =>
    constructor
    · intro he; simp at he
    · rintro ⟨u, v, huv, h1, h2⟩
      simp only [List.mem_singleton] at h1 h2
      exact absurd (h1.trans h2.symm) huv
  | p :: q :: t =>
    have hq := findForwardPaths_second_nonempty h
    rw [h] at hnd
    constructor
    · intro _
      refine ⟨p, q, ?_, by simp, by simp⟩
      intro hpq; simp [hpq] at hnd
    · intro _; simp [hq]

/-- Hypotheses of C02 are met by a schema with two paths from `tx` to `cust` (three in fact). -/
example : demoRels.Nodup ∧
    SimpleChain demoRels "tx" "cust" [⟨"cust", "id", "tx", "payer"⟩] ∧
    SimpleChain demoRels "tx" "cust" [⟨"sess", "id", "tx", "sess_id"⟩, ⟨"cust", "id", "sess", "cust_id"⟩] := by
  refine ⟨by decide, ⟨⟨by decide, rfl, rfl⟩, by decide⟩, ⟨⟨by decide, rfl, by decide, rfl, rfl⟩, by decide⟩⟩

/-- C03: one-step forward neighbours. -/
theorem C03_forward_entities (rels : List Relationship) (e x : String) (q : RelPath) :
    (x, q) ∈ getForwardEntities rels e ↔ ∃ r ∈ rels, r.childE = e ∧ r.parentE = x ∧ q = [(true, r)] := by
  simp only [getForwardEntities, List.mem_map, Prod.mk.injEq, mem_getForward]
  constructor
  · rintro ⟨r, ⟨h1, h2⟩, h3, h4⟩; exact ⟨r, h1, h2, h3, h4.symm⟩
  · rintro ⟨r, h1, h2, h3, h4⟩; exact ⟨r, ⟨h1, h2⟩, h3, h4.symm⟩

/-- C03: one-step backward neighbours. -/
theorem C03_backward_entities (rels : List Relationship) (e x : String) (q : RelPath) :
    (x, q) ∈ getBackwardEntities rels e ↔ ∃ r ∈ rels, r.parentE = e ∧ r.childE = x ∧ q = [(false, r)] := by
  simp only [getBackwardEntities, List.mem_map, Prod.mk.injEq, mem_getBackward]
  constructor
  · rintro ⟨r, ⟨h1, h2⟩, h3, h4⟩; exact ⟨r, h1, h2, h3, h4.symm⟩
  · rintro ⟨r, h1, h2, h3, h4⟩; exact ⟨r, ⟨h1, h2⟩, h3, h4.symm⟩

/-- C03: on an acyclic schema the deep forward enumeration terminates and lists exactly the non-empty chains. -/
theorem C03_deep_forward (rels : List Relationship) (hac : Acyclic rels) (e : String) :
    ∃ out, deepForwardEntities rels (rels.length + 1) e = some out ∧
      ∀ x q, (x, q) ∈ out ↔ ∃ p, q = p.map (fun r => (true, r)) ∧ p ≠ [] ∧ Chain rels e x p := by
  have hs := (deepForward_isSome_iff (rels := rels) (rels.length + 1) e).mpr fun b p hc =>
    Nat.lt_succ_of_le (chain_length_le_of_acyclic hac hc)
  obtain ⟨out, hout⟩ := Option.isSome_iff_exists.mp hs
  exact ⟨out, hout, mem_deepForward _ _ _ hout⟩

/-- C03: on an acyclic schema the deep backward enumeration terminates and lists exactly the non-empty chains, walked
from the ancestor down. -/
theorem C03_deep_backward (rels : List Relationship) (hac : Acyclic rels) (e : String) :
    ∃ out, deepBackwardEntities rels (rels.length + 1) e = some out ∧
      ∀ x q, (x, q) ∈ out ↔
        ∃ p, q = p.reverse.map (fun r => (false, r)) ∧ p ≠ [] ∧ Chain rels x e p := by
  have hs := (deepBackward_isSome_iff (rels := rels) (rels.length + 1) e).mpr fun b p hc =>
    Nat.lt_succ_of_le (chain_length_le_of_acyclic hac hc)
  obtain ⟨out, hout⟩ := Option.isSome_iff_exists.mp hs
  exact ⟨out, hout, mem_deepBackward _ _ _ hout⟩

/-- C03: the deep forward enumeration finishes iff chains from the start entity have bounded length. -/
theorem C03_deep_forward_terminates_iff (rels : List Relationship) (e : String) :
    (∃ n, (deepForwardEntities rels n e).isSome) ↔ ∃ n, ∀ b p, Chain rels e b p → p.length < n := by
  simp only [deepForward_isSome_iff]

/-- C03: started on a cycle, the deep enumeration never finishes, whatever the recursion budget. -/
theorem C03_deep_forward_cycle (rels : List Relationship) (e : String) (c : List Relationship)
    (hc : Chain rels e e c) (hne : c ≠ []) (n : Nat) : deepForwardEntities rels n e = none := by
  cases h : deepForwardEntities rels n e with
  | none => rfl
  | some out =>
    have hb := (deepForward_isSome_iff (rels := rels) n e).mp (by simp [h])
    have hlong : ∀ k : Nat, ∃ p, Chain rels e e p ∧ k ≤ p.length := by
      intro k
      induction k with
      | zero => exact ⟨[], rfl, by simp⟩
      | succ k ih =>
        obtain ⟨p, hp, hk⟩ := ih
        refine ⟨c ++ p, chain_append hc hp, ?_⟩
        have : 0 < c.length := List.length_pos_iff.mpr hne
        simp only [List.length_append]; omega
    obtain ⟨p, hp, hk⟩ := hlong n
    exact absurd (hb e p hp) (by omega)

/-- Non-vacuity: an acyclic two-level schema with a parallel relationship. -/
example : Acyclic [⟨"cust", "id", "tx", "payer"⟩, ⟨"cust", "id", "tx", "payee"⟩] := by
  intro a p h
  match p, h with
  | [], _ => rfl
  | [r], ⟨h1, h2, h3⟩ =>
    simp only [List.mem_cons, List.not_mem_nil, or_false] at h1
    have h5 : r.parentE = r.childE := (show r.parentE = a from h3).trans h2.symm
    rcases h1 with rfl | rfl <;> simp at h5
  | r :: s :: t, ⟨h1, h2, h3, h4, _⟩ =>
    simp only [List.mem_cons, List.not_mem_nil, or_false] at h1 h3
    rcases h1 with rfl | rfl <;> rcases h3 with rfl | rfl <;> exact absurd h4 (by decide)

/-- Non-vacuity: the self loop of `demoRels` is a cycle. -/
example : Chain demoRels "cust" "cust" [⟨"cust", "id", "cust", "ref"⟩] ∧
    [(⟨"cust", "id", "cust", "ref"⟩ : Relationship)] ≠ [] := by
  refine ⟨⟨by decide, rfl, rfl⟩, by decide⟩

end FT
