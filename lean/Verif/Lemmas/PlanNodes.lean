import Verif.Lemmas.Plan
import Verif.Lemmas.Trie
/-! # Which nodes the plan has -/
namespace FT
open Spec
open Trie (child? upsert modifyAt nodeAt new child?_upsert)

section generic
variable {κ ν : Type} [DecidableEq κ]

/-- The trie has a node at the path. -/
def hasNode : List κ → Trie κ ν → Prop
  | [], _ => True
  | k :: q, .node _ cs => match child? k cs with
    | some s => hasNode q s
    | none => False

theorem hasNode_cons (k : κ) (q : List κ) (v : ν) (cs : List (κ × Trie κ ν)) :
    hasNode (k :: q) (.node v cs) ↔ ∃ s, child? k cs = some s ∧ hasNode q s := by
  simp only [hasNode]
  cases child? k cs <;> simp

theorem hasNode_new (dflt : ν) (q : List κ) : hasNode q (new dflt) ↔ q = [] := by
  cases q with
  | nil => simp [hasNode]
  | cons k q => simp [new, hasNode_cons, child?]

theorem hasNode_upsert (k : κ) (q : List κ) (k' : κ) (g : Trie κ ν → Trie κ ν) (dflt v : ν) (cs) :
    hasNode (k' :: q) (.node v (upsert k g (new dflt) cs)) ↔
      if k = k' then hasNode q (g ((child? k cs).getD (new dflt))) else hasNode (k' :: q) (.node v cs) := by
  rw [hasNode_cons, hasNode_cons, child?_upsert]
  by_cases h : k = k' <;> simp [h]

theorem hasNode_child (k : κ) (q : List κ) (dflt v : ν) (cs) :
    hasNode q ((child? k cs).getD (new dflt : Trie κ ν)) ↔ hasNode (k :: q) (.node v cs) ∨ q = [] := by
  rw [hasNode_cons]
  cases h : child? k cs with
  | none => simp [hasNode_new]
  | some s =>
    simp only [Option.getD_some, Option.some.injEq, exists_eq_left']
    constructor
    · exact .inl
    · rintro (h | rfl)
      · exact h
      · simp [hasNode]

/-- Changing the node at a path so that it only grows by `Q`. -/
theorem hasNode_modifyAt (dflt : ν) (g : Trie κ ν → Trie κ ν) (Q : List κ → Prop)
    (hg : ∀ q t, hasNode q (g t) → hasNode q t ∨ Q q) (p : List κ) : ∀ (q : List κ) (t : Trie κ ν),
    hasNode q (modifyAt dflt g p t) → hasNode q t ∨ q <+: p ∨ ∃ r, q = p ++ r ∧ Q r := by
  induction p with
  | nil =>
    intro q t h
    rcases hg q t h with h | h
    · exact .inl h
    · exact .inr (.inr ⟨q, rfl, h⟩)
  | cons k p ih =>
    intro q t h
    obtain ⟨v, cs⟩ := t
    cases q with
    | nil => exact .inl trivial
    | cons k' q =>
      simp only [modifyAt, hasNode_upsert] at h
      by_cases hk : k = k'
      · subst hk
        simp only [if_true] at h
        rcases ih q _ h with h | h | ⟨r, rfl, hr⟩
        · rcases (hasNode_child k q dflt v cs).mp h with h | rfl
          · exact .inl h
          · exact .inr (.inl (by simp))
        · exact .inr (.inl (by simpa using h))
        · exact .inr (.inr ⟨r, rfl, hr⟩)
      · rw [if_neg hk] at h
        exact .inl h

theorem valueAt_of_not_hasNode (dflt : ν) : ∀ (q : List κ) (t : Trie κ ν), ¬ hasNode q t → valueAt dflt q t = dflt
  | [], _, h => absurd trivial h
  | k :: q, .node v cs, h => by
    rw [valueAt_cons]
    cases hc : child? k cs with
    | none => rw [Option.getD_none, valueAt_new]
    | some s =>
      rw [Option.getD_some]
      exact valueAt_of_not_hasNode dflt q s fun hq => h ((hasNode_cons ..).mpr ⟨s, hc, hq⟩)

theorem hasNode_prefix {p q : List κ} (h : p <+: q) : ∀ {t : Trie κ ν}, hasNode q t → hasNode p t := by
  induction p generalizing q with
  | nil => intro t _; exact trivial
  | cons k p ih =>
    intro t hq
    obtain ⟨r, rfl⟩ := h
    obtain ⟨v, cs⟩ := t
    rw [List.cons_append, hasNode_cons] at hq
    obtain ⟨s, hs, hq⟩ := hq
    exact (hasNode_cons ..).mpr ⟨s, hs, ih ⟨r, rfl⟩ hq⟩
end generic

theorem hasNode_setValue (q : List Edge) (v : NodeVal) (t : FTrie) : hasNode q (t.setValue v) ↔ hasNode q t := by
  obtain ⟨w, cs⟩ := t
  cases q with
  | nil => exact Iff.rfl
  | cons k q => simp only [Trie.setValue, hasNode_cons]

theorem hasNode_markPath (es : List Edge) : ∀ (q : List Edge) (t : FTrie), hasNode q (markPath es t) → hasNode q t ∨ q <+: es := by
  induction es with
  | nil => intro q t h; exact .inl h
  | cons e es ih =>
    intro q t h
    obtain ⟨v, cs⟩ := t
    cases q with
    | nil => exact .inl trivial
    | cons k q =>
      simp only [markPath, hasNode_upsert] at h
      by_cases hk : e = k
      · subst hk
        simp only [if_true] at h
        rcases ih q _ h with h | h
        · rw [hasNode_setValue] at h
          rcases (hasNode_child e q NodeVal.empty v cs).mp h with h | rfl
          · exact .inl h
          · exact .inr (by simp)
        · exact .inr (by simpa using h)
      · rw [if_neg hk] at h; exact .inl h

theorem hasNode_register (q : List Edge) (full : Bool) (n : String) (path : List Edge) (t : FTrie)
    (h : hasNode q (register full n path t)) : hasNode q t ∨ q <+: path := by
  unfold register at h
  cases full with
  | true =>
    rcases hasNode_markPath path q _ (by simpa using h) with h | h
    · exact .inl ((hasNode_setValue ..).mp h)
    · exact .inr h
  | false =>
    rcases hasNode_modifyAt NodeVal.empty id (fun _ => False) (fun q t h => .inl h) path q _ (by simpa using h) with h | h | ⟨_, _, h⟩
    · exact .inl ((hasNode_setValue ..).mp h)
    · exact .inr h
    · exact h.elim

mutual
theorem hasNode_addFeature (u anc : Bool) : ∀ (f : Feat) (approx : ATrie) (q : List Edge) (t : FTrie),
    hasNode q (addFeature u anc f approx t) →
      hasNode q t ∨ ∃ x ∈ visits u anc f approx, q <+: x.1 ++ x.2.1.path
  | .mk info bases wh, approx, q, t => by
    by_cases hs : u = true ∧ ∃ n, info.kind = .slice n
    · obtain ⟨rfl, n, hn⟩ := hs
      rw [addFeature.eq_1 _ _ _ _ _ _ n hn, visits.eq_1 _ _ _ _ _ n hn]
      exact hasNode_addHead anc bases approx q t
    · have hs' : ∀ n, u = true → info.kind = .slice n → False := fun n h1 h2 => hs ⟨h1, n, h2⟩
      rw [addFeature.eq_2 _ _ _ _ _ _ _ hs', visits.eq_2 _ _ _ _ _ _ hs']
      simp only
      split
      · exact .inl
      · intro h
        rcases hasNode_addDeps _ _ _ wh q _ h with h | h | ⟨x, hx, h⟩
        · rcases hasNode_addDeps _ _ _ bases q _ h with h | h | ⟨x, hx, h⟩
          · rcases hasNode_register _ _ _ _ _ h with h | h
            · exact .inl h
            · exact .inr ⟨_, List.mem_cons_self, h⟩
          · exact .inr ⟨_, List.mem_cons_self, h⟩
          · refine .inr ⟨_, List.mem_cons_of_mem _ (List.mem_map.mpr ⟨x, List.mem_append.mpr (.inl hx), rfl⟩), ?_⟩
            simpa using h
        · exact .inr ⟨_, List.mem_cons_self, h⟩
        · refine .inr ⟨_, List.mem_cons_of_mem _ (List.mem_map.mpr ⟨x, List.mem_append.mpr (.inr hx), rfl⟩), ?_⟩
          simpa using h
theorem hasNode_addDeps (full : Bool) (path : List Edge) (sub : ATrie) : ∀ (ds : List Feat) (q : List Edge) (t : FTrie),
    hasNode q (addDeps full path sub ds t) →
      hasNode q t ∨ q <+: path ∨ ∃ x ∈ visitsList full sub ds, q <+: path ++ (x.1 ++ x.2.1.path)
  | [], q, t => by simp only [addDeps]; exact .inl
  | d :: ds, q, t => by
    rw [addDeps, visitsList]
    intro h
    rcases hasNode_addDeps full path sub ds q _ h with h | h | ⟨x, hx, h⟩
    · rcases hasNode_modifyAt NodeVal.empty _ _ (fun q t h => hasNode_addFeature true full d sub q t h) path q t h with h | h | ⟨r, rfl, x, hx, h⟩
      · exact .inl h
      · exact .inr (.inl h)
      · exact .inr (.inr ⟨x, List.mem_append.mpr (.inl hx), by simpa using h⟩)
    · exact .inr (.inl h)
    · exact .inr (.inr ⟨x, List.mem_append.mpr (.inr hx), h⟩)
theorem hasNode_addHead (anc : Bool) : ∀ (bs : List Feat) (approx : ATrie) (q : List Edge) (t : FTrie),
    hasNode q (addHead anc bs approx t) → hasNode q t ∨ ∃ x ∈ visitsHead anc bs approx, q <+: x.1 ++ x.2.1.path
  | [], _, q, t => by simp only [addHead]; exact .inl
  | b :: _, approx, q, t => by rw [addHead, visitsHead]; exact hasNode_addFeature false anc b approx q t
end

/-- Every node of the plan lies on the way of a planned feature. -/
theorem hasNode_buildTrie (targets : List Feat) (approx : ATrie) (q : List Edge) (h : hasNode q (buildTrie targets approx)) :
    q = [] ∨ ∃ p g full, Planned targets (hiddenBy approx) p g full ∧ q <+: p ++ g.path := by
  have key : ∀ (ts : List Feat) (t : FTrie), hasNode q (ts.foldl (fun t f => addFeature false false f approx t) t) →
      hasNode q t ∨ ∃ x ∈ ts.flatMap fun f => visits false false f approx, q <+: x.1 ++ x.2.1.path := by
    intro ts
    induction ts with
    | nil => intro t h; exact .inl h
    | cons f ts ih =>
      intro t h
      simp only [List.foldl_cons] at h
      rcases ih _ h with h | ⟨x, hx, h⟩
      · rcases hasNode_addFeature _ _ _ _ _ _ h with h | ⟨x, hx, h⟩
        · exact .inl h
        · exact .inr ⟨x, by simp [hx], h⟩
      · exact .inr ⟨x, by rw [List.flatMap_cons]; exact List.mem_append.mpr (.inr hx), h⟩
  rcases key targets _ h with h | ⟨⟨p, g, full⟩, hx, h⟩
  · exact .inl ((hasNode_new ..).mp h)
  · exact .inr ⟨p, g, full, (mem_visits_iff ..).mp hx, h⟩

open Trie (WF WFs WF_new WF_modifyAt nodup_upsert WFs_upsert)

theorem WF_setValue (v : NodeVal) (t : FTrie) (h : WF t) : WF (t.setValue v) := by cases t; exact h

theorem WF_markPath (es : List Edge) : ∀ t : FTrie, WF t → WF (markPath es t) := by
  induction es with
  | nil => intro t h; exact h
  | cons e es ih =>
    rintro ⟨v, cs⟩ ⟨h1, h2⟩
    exact ⟨nodup_upsert _ _ _ _ h1, WFs_upsert _ _ _ _ h2 (WF_new _) fun t ht => ih _ (WF_setValue _ t ht)⟩

theorem WF_register (full : Bool) (n : String) (path : List Edge) (t : FTrie) (h : WF t) : WF (register full n path t) := by
  unfold register
  split
  · exact WF_markPath _ _ (WF_setValue _ t h)
  · exact WF_modifyAt _ _ (fun _ h => h) _ _ (WF_setValue _ t h)

mutual
theorem WF_addFeature (u anc : Bool) : ∀ (f : Feat) (approx : ATrie) (t : FTrie), WF t → WF (addFeature u anc f approx t)
  | .mk info bases wh, approx, t => by
    intro ht
    by_cases hs : u = true ∧ ∃ n, info.kind = .slice n
    · obtain ⟨rfl, n, hn⟩ := hs
      rw [addFeature.eq_1 _ _ _ _ _ _ n hn]
      exact WF_addHead anc bases approx t ht
    · have hs' : ∀ n, u = true → info.kind = .slice n → False := fun n h1 h2 => hs ⟨h1, n, h2⟩
      rw [addFeature.eq_2 _ _ _ _ _ _ _ hs']
      simp only
      split
      · exact ht
      · exact WF_addDeps _ _ _ wh _ (WF_addDeps _ _ _ bases _ (WF_register _ _ _ _ ht))
theorem WF_addDeps (full : Bool) (path : List Edge) (sub : ATrie) : ∀ (ds : List Feat) (t : FTrie), WF t →
    WF (addDeps full path sub ds t)
  | [], t => by simp only [addDeps]; exact id
  | d :: ds, t => by
    rw [addDeps]
    intro ht
    exact WF_addDeps full path sub ds _ (WF_modifyAt _ _ (fun t h => WF_addFeature true full d sub t h) _ _ ht)
theorem WF_addHead (anc : Bool) : ∀ (bs : List Feat) (approx : ATrie) (t : FTrie), WF t → WF (addHead anc bs approx t)
  | [], _, t => by simp only [addHead]; exact id
  | b :: _, approx, t => by rw [addHead]; exact WF_addFeature false anc b approx t
end

theorem WF_buildTrie (targets : List Feat) (approx : ATrie) : WF (buildTrie targets approx) := by
  unfold buildTrie
  suffices ∀ t : FTrie, WF t → WF (targets.foldl (fun t f => addFeature false false f approx t) t) from this _ (WF_new _)
  induction targets with
  | nil => intro t h; exact h
  | cons f fs ih => intro t h; exact ih _ (WF_addFeature _ _ _ _ _ h)

end FT
