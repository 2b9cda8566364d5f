import Verif.Lemmas.PlanNodes
/-! # The plan has the nodes its features need -/
namespace FT
open Spec
open Trie (child? upsert modifyAt nodeAt new child?_upsert)

section generic
variable {κ ν : Type} [DecidableEq κ]

theorem hasNode_modifyAt_mono (dflt : ν) (g : Trie κ ν → Trie κ ν) (hg : ∀ q t, hasNode q t → hasNode q (g t)) (p : List κ) :
    ∀ (q : List κ) (t : Trie κ ν), hasNode q t → hasNode q (modifyAt dflt g p t) := by
  induction p with
  | nil => intro q t h; exact hg q t h
  | cons k p ih =>
    intro q t h
    obtain ⟨v, cs⟩ := t
    cases q with
    | nil => exact trivial
    | cons k' q =>
      simp only [modifyAt, hasNode_upsert]
      by_cases hk : k = k'
      · subst hk
        simp only [if_true]
        exact ih q _ ((hasNode_child k q dflt v cs).mpr (.inl h))
      · rw [if_neg hk]; exact h

theorem hasNode_modifyAt_below (dflt : ν) (g : Trie κ ν → Trie κ ν) (r : List κ) (p : List κ) :
    ∀ (t : Trie κ ν), hasNode r (g (nodeAt dflt p t)) → hasNode (p ++ r) (modifyAt dflt g p t) := by
  induction p with
  | nil => intro t h; exact h
  | cons k p ih =>
    intro t h
    obtain ⟨v, cs⟩ := t
    simp only [List.cons_append, modifyAt, hasNode_upsert, if_true]
    exact ih _ h
end generic

theorem hasNode_markPath_mono (es : List Edge) : ∀ (q : List Edge) (t : FTrie), hasNode q t → hasNode q (markPath es t) := by
  induction es with
  | nil => intro q t h; exact h
  | cons e es ih =>
    intro q t h
    obtain ⟨v, cs⟩ := t
    cases q with
    | nil => exact trivial
    | cons k q =>
      simp only [markPath, hasNode_upsert]
      by_cases hk : e = k
      · subst hk
        simp only [if_true]
        exact ih q _ ((hasNode_setValue ..).mpr ((hasNode_child e q NodeVal.empty v cs).mpr (.inl h)))
      · rw [if_neg hk]; exact h

theorem hasNode_markPath_self (es : List Edge) : ∀ (t : FTrie), hasNode es (markPath es t) := by
  induction es with
  | nil => intro t; exact trivial
  | cons e es ih =>
    intro t
    obtain ⟨v, cs⟩ := t
    simp only [markPath, hasNode_upsert, if_true]
    exact ih _

theorem hasNode_register_mono (full : Bool) (n : String) (path : List Edge) (q : List Edge) (t : FTrie) (h : hasNode q t) :
    hasNode q (register full n path t) := by
  unfold register
  split
  · exact hasNode_markPath_mono _ _ _ ((hasNode_setValue ..).mpr h)
  · exact hasNode_modifyAt_mono _ _ (fun _ _ h => h) _ _ _ ((hasNode_setValue ..).mpr h)

theorem hasNode_register_self (full : Bool) (n : String) (path : List Edge) (t : FTrie) : hasNode path (register full n path t) := by
  unfold register
  split
  · exact hasNode_markPath_self _ _
  · have := hasNode_modifyAt_below NodeVal.empty id [] path (t.setValue (t.value.visit full n)) trivial
    simpa using this

mutual
theorem hasNode_addFeature_mono (u anc : Bool) : ∀ (f : Feat) (approx : ATrie) (q : List Edge) (t : FTrie),
    hasNode q t → hasNode q (addFeature u anc f approx t)
  | .mk info bases wh, approx, q, t => by
    by_cases hs : u = true ∧ ∃ n, info.kind = .slice n
    · obtain ⟨rfl, n, hn⟩ := hs
      rw [addFeature.eq_1 _ _ _ _ _ _ n hn]
      exact hasNode_addHead_mono anc bases approx q t
    · have hs' : ∀ n, u = true → info.kind = .slice n → False := fun n h1 h2 => hs ⟨h1, n, h2⟩
      rw [addFeature.eq_2 _ _ _ _ _ _ _ hs']
      simp only
      split
      · exact id
      · exact fun h => hasNode_addDeps_mono _ _ _ wh q _ (hasNode_addDeps_mono _ _ _ bases q _ (hasNode_register_mono _ _ _ _ _ h))
theorem hasNode_addDeps_mono (full : Bool) (path : List Edge) (sub : ATrie) : ∀ (ds : List Feat) (q : List Edge) (t : FTrie),
    hasNode q t → hasNode q (addDeps full path sub ds t)
  | [], q, t => by simp only [addDeps]; exact id
  | d :: ds, q, t => by
    rw [addDeps]
    exact fun h => hasNode_addDeps_mono full path sub ds q _
      (hasNode_modifyAt_mono _ _ (fun q t h => hasNode_addFeature_mono true full d sub q t h) path q t h)
theorem hasNode_addHead_mono (anc : Bool) : ∀ (bs : List Feat) (approx : ATrie) (q : List Edge) (t : FTrie),
    hasNode q t → hasNode q (addHead anc bs approx t)
  | [], _, q, t => by simp only [addHead]; exact id
  | b :: _, approx, q, t => by rw [addHead]; exact hasNode_addFeature_mono false anc b approx q t
end

mutual
theorem hasNode_addFeature_visit (u anc : Bool) : ∀ (f : Feat) (approx : ATrie) (t : FTrie), ∀ x ∈ visits u anc f approx,
    hasNode (x.1 ++ x.2.1.path) (addFeature u anc f approx t)
  | .mk info bases wh, approx, t => by
    by_cases hs : u = true ∧ ∃ n, info.kind = .slice n
    · obtain ⟨rfl, n, hn⟩ := hs
      rw [addFeature.eq_1 _ _ _ _ _ _ n hn, visits.eq_1 _ _ _ _ _ n hn]
      exact hasNode_addHead_visit anc bases approx t
    · have hs' : ∀ n, u = true → info.kind = .slice n → False := fun n h1 h2 => hs ⟨h1, n, h2⟩
      rw [addFeature.eq_2 _ _ _ _ _ _ _ hs', visits.eq_2 _ _ _ _ _ _ hs']
      simp only
      split
      · intro x hx; cases hx
      · intro x hx
        rcases List.mem_cons.mp hx with rfl | hx
        · exact hasNode_addDeps_mono _ _ _ wh _ _ (hasNode_addDeps_mono _ _ _ bases _ _ (hasNode_register_self _ _ _ _))
        · obtain ⟨y, hy, rfl⟩ := List.mem_map.mp hx
          simp only [List.append_assoc]
          rcases List.mem_append.mp hy with hy | hy
          · exact hasNode_addDeps_mono _ _ _ wh _ _ (hasNode_addDeps_visit _ _ _ bases _ y hy)
          · exact hasNode_addDeps_visit _ _ _ wh _ y hy
theorem hasNode_addDeps_visit (full : Bool) (path : List Edge) (sub : ATrie) : ∀ (ds : List Feat) (t : FTrie),
    ∀ x ∈ visitsList full sub ds, hasNode (path ++ (x.1 ++ x.2.1.path)) (addDeps full path sub ds t)
  | [], t => by intro x hx; simp [visitsList] at hx
  | d :: ds, t => by
    intro x hx
    rw [addDeps]
    rw [visitsList] at hx
    rcases List.mem_append.mp hx with hx | hx
    · exact hasNode_addDeps_mono full path sub ds _ _
        (hasNode_modifyAt_below _ _ _ path t (hasNode_addFeature_visit true full d sub _ x hx))
    · exact hasNode_addDeps_visit full path sub ds _ x hx
theorem hasNode_addHead_visit (anc : Bool) : ∀ (bs : List Feat) (approx : ATrie) (t : FTrie), ∀ x ∈ visitsHead anc bs approx,
    hasNode (x.1 ++ x.2.1.path) (addHead anc bs approx t)
  | [], _, t => by intro x hx; simp [visitsHead] at hx
  | b :: _, approx, t => by rw [addHead, visitsHead]; exact hasNode_addFeature_visit false anc b approx t
end

/-- The plan has a node where a planned feature looks for its base features. -/
theorem hasNode_planned {targets : List Feat} {approx : ATrie} {p : List Edge} {g : Feat} {full : Bool}
    (h : Planned targets (hiddenBy approx) p g full) : hasNode (p ++ g.path) (buildTrie targets approx) := by
  have hx := (mem_visits_iff targets approx p g full).mpr h
  unfold buildTrie
  have mono : ∀ (ts : List Feat) (q : List Edge) (t : FTrie), hasNode q t → hasNode q (ts.foldl (fun t f => addFeature false false f approx t) t) := by
    intro ts
    induction ts with
    | nil => intro q t h; exact h
    | cons f ts ih => intro q t h; exact ih q _ (hasNode_addFeature_mono _ _ _ _ _ _ h)
  have key : ∀ (ts : List Feat) (t : FTrie), (p, g, full) ∈ (ts.flatMap fun f => visits false false f approx) →
      hasNode (p ++ g.path) (ts.foldl (fun t f => addFeature false false f approx t) t) := by
    intro ts
    induction ts with
    | nil => intro t h; simp at h
    | cons f ts ih =>
      intro t h
      rw [List.flatMap_cons] at h
      rcases List.mem_append.mp h with h | h
      · exact mono ts _ _ (hasNode_addFeature_visit _ _ _ _ _ _ h)
      · exact ih _ h
  exact key targets _ hx

end FT
