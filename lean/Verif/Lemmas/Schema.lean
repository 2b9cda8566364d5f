import Verif.Model.Schema
import Verif.Spec.Schema
/-! Helper lemmas about path search. -/
namespace FT
open Spec

theorem mem_getForward {rels : List Relationship} {e : String} {r : Relationship} :
    r ∈ getForwardRelationships rels e ↔ r ∈ rels ∧ r.childE = e := by
  simp [getForwardRelationships]

theorem mem_getBackward {rels : List Relationship} {e : String} {r : Relationship} :
    r ∈ getBackwardRelationships rels e ↔ r ∈ rels ∧ r.parentE = e := by
  simp [getBackwardRelationships]

theorem forwardEntityPaths_eq (rels : List Relationship) (seen : List String) (e : String) :
    forwardEntityPaths rels seen e =
      if seen.contains e then []
      else (e, []) :: (getForwardRelationships rels e).flatMap fun r =>
        (forwardEntityPaths rels (e :: seen) r.parentE).map fun (x, p) => (x, r :: p) := by
  rw [forwardEntityPaths]
  split
  · rfl
  · congr 1
    conv => rhs; rw [← List.attach_map_subtype_val (getForwardRelationships rels e)]
    rw [List.flatMap_map]

theorem mem_forwardEntityPaths (rels : List Relationship) (p : List Relationship) :
    ∀ (seen : List String) (e x : String), (x, p) ∈ forwardEntityPaths rels seen e ↔
      Chain rels e x p ∧ (visited e p).Nodup ∧ ∀ y ∈ visited e p, y ∉ seen := by
  induction p with
  | nil =>
    intro seen e x
    rw [forwardEntityPaths_eq]
    split
    · rename_i h
      have h' : e ∈ seen := by simpa using h
      simp only [List.not_mem_nil, visited, List.map_nil, List.mem_cons, or_false, forall_eq, h',
        not_true_eq_false, and_false]
    · rename_i h
      have h' : e ∉ seen := by simpa using h
      simp only [List.mem_cons, Prod.mk.injEq, and_true, List.mem_flatMap, List.mem_map, visited, List.map_nil,
        List.not_mem_nil, or_false, forall_eq, h', not_false_eq_true]
      constructor
      · rintro (rfl | ⟨r, _, q, _, hq⟩)
        · exact ⟨rfl, by simp⟩
        · simp at hq
      · rintro ⟨hc, _⟩
        exact Or.inl (Eq.symm hc)
  | cons r p ih =>
    intro seen e x
    rw [forwardEntityPaths_eq]
    split
    · rename_i h
      have h' : e ∈ seen := by simpa using h
      simp only [List.not_mem_nil, false_iff, not_and]
      intro _ _ hy
      exact hy e (by simp [visited]) h'
    · rename_i h
      have h' : e ∉ seen := by simpa using h
      simp only [List.mem_cons, Prod.mk.injEq, reduceCtorEq, and_false, false_or, List.mem_flatMap, List.mem_map]
      constructor
      · rintro ⟨r', hr', ⟨x', q⟩, hm, hx, hq⟩
        simp only at hx hq
        obtain ⟨rfl, rfl⟩ := List.cons.inj hq
        subst hx
        have hr := mem_getForward.mp hr'
        obtain ⟨hc, hn, hs⟩ := (ih _ _ _).mp hm
        obtain ⟨hr1, hr2⟩ := hr
        subst hr2
        refine ⟨⟨hr1, rfl, hc⟩, ?_, ?_⟩
        · simp only [visited, List.map_cons, List.nodup_cons] at hn ⊢
          refine ⟨?_, hn⟩
          intro hmem
          exact hs _ hmem (by simp)
        · intro y hy
          simp only [visited, List.map_cons, List.mem_cons] at hy
          rcases hy with rfl | hy
          · exact h'
          · intro hys
            exact hs y (by simpa [visited] using hy) (by simp [hys])
      · rintro ⟨hc, hn, hs⟩
        obtain ⟨hr, hre, hc'⟩ := hc
        refine ⟨r, mem_getForward.mpr ⟨hr, hre⟩, (x, p), ?_, rfl, rfl⟩
        apply (ih _ _ _).mpr
        refine ⟨hc', ?_, ?_⟩
        · simp only [visited, List.map_cons, List.nodup_cons] at hn ⊢
          exact hn.2
        · intro y hy hy'
          simp only [visited, List.map_cons, List.nodup_cons] at hn
          rcases List.mem_cons.mp hy' with rfl | hy'
          · exact hn.1 hy
          · exact hs y (by simpa [visited] using Or.inr hy) hy'

theorem mem_findForwardPaths {rels : List Relationship} {a b : String} {p : List Relationship} :
    p ∈ findForwardPaths rels a b ↔ SimpleChain rels a b p := by
  unfold findForwardPaths SimpleChain
  simp only [List.mem_filterMap]
  constructor
  · rintro ⟨⟨x, q⟩, hm, hx⟩
    by_cases hxb : x = b
    · subst hxb
      simp at hx; subst hx
      have := (mem_forwardEntityPaths rels _ _ _ _).mp hm
      exact ⟨this.1, this.2.1⟩
    · simp [hxb] at hx
  · rintro ⟨hc, hn⟩
    exact ⟨(b, p), (mem_forwardEntityPaths rels p [] a b).mpr ⟨hc, hn, by simp⟩, by simp⟩

theorem nodup_forwardEntityPaths {rels : List Relationship} (hr : rels.Nodup) (seen : List String) (e : String) :
    (forwardEntityPaths rels seen e).Nodup := by
  generalize hm : unseenChildren rels seen = m
  induction m using Nat.strongRecOn generalizing seen e with
  | _ m ih =>
    rw [forwardEntityPaths_eq]
    split
    · simp
    · rename_i h
      rw [List.nodup_cons]
      constructor
      · simp only [List.mem_flatMap, List.mem_map, not_exists, not_and]
        rintro r _ ⟨x, p⟩ _ hq
        simp at hq
      · have hf : (getForwardRelationships rels e).Nodup := hr.sublist List.filter_sublist
        have hsub : ∀ r ∈ getForwardRelationships rels e, r ∈ getForwardRelationships rels e := fun _ h => h
        revert hf hsub
        generalize hl : getForwardRelationships rels e = l
        intro hf _
        have hall : ∀ r ∈ l, r ∈ getForwardRelationships rels e := by rw [hl]; exact fun _ h => h
        clear hl
        induction l with
        | nil => simp
        | cons r t iht =>
          simp only [List.flatMap_cons]
          rw [List.nodup_append]
          have hf' := List.nodup_cons.mp hf
          refine ⟨?_, iht hf'.2 (fun _ h => h) (fun r hr => hall r (List.mem_cons_of_mem _ hr)), ?_⟩
          · have hlt := unseenChildren_lt (seen := seen) (by simpa using h) (hall r (by simp))
            have := ih _ (hm ▸ hlt) (e :: seen) r.parentE rfl
            refine List.Pairwise.map (R := (· ≠ ·)) _ ?_ this
            rintro ⟨x, p⟩ ⟨y, q⟩ hne heq
            simp only [Prod.mk.injEq, List.cons.injEq, true_and] at heq
            exact hne (by rw [heq.1, heq.2])
          · intro u hu v hv huv
            subst huv
            simp only [List.mem_map] at hu
            obtain ⟨⟨x, p⟩, _, rfl⟩ := hu
            simp only [List.mem_flatMap, List.mem_map] at hv
            obtain ⟨r', hr', ⟨y, q⟩, _, hq⟩ := hv
            simp only [Prod.mk.injEq, List.cons.injEq] at hq
            exact hf'.1 (hq.2.1 ▸ hr')

theorem nodup_findForwardPaths {rels : List Relationship} (hr : rels.Nodup) (a b : String) :
    (findForwardPaths rels a b).Nodup := by
  unfold findForwardPaths
  refine List.Pairwise.filterMap _ ?_ (nodup_forwardEntityPaths hr [] a)
  rintro ⟨x, p⟩ ⟨y, q⟩ hne u hu v hv huv
  subst huv
  by_cases hx : x = b
  · by_cases hy : y = b
    · simp [hx] at hu; simp [hy] at hv
      exact hne (by rw [hx, hy, hu, hv])
    · simp [hy] at hv
  · simp [hx] at hu

theorem findForwardPaths_second_nonempty {rels : List Relationship} {a b : String} {p q : List Relationship}
    {t : List (List Relationship)} (h : findForwardPaths rels a b = p :: q :: t) : q ≠ [] := by
  intro hq
  subst hq
  unfold findForwardPaths at h
  rw [forwardEntityPaths_eq] at h
  simp only [List.contains_nil, Bool.false_eq_true, if_false] at h
  rw [List.filterMap_cons] at h
  have hmem : ∀ u ∈ (List.filterMap (fun x : String × List Relationship => if x.1 == b then some x.2 else none)
      ((getForwardRelationships rels a).flatMap fun r =>
        (forwardEntityPaths rels [a] r.parentE).map fun (x, p) => (x, r :: p))), u ≠ [] := by
    intro u hu
    simp only [List.mem_filterMap, List.mem_flatMap, List.mem_map] at hu
    obtain ⟨⟨x, p'⟩, ⟨r, _, ⟨y, q'⟩, _, hxy⟩, hu⟩ := hu
    simp only [Prod.mk.injEq] at hxy
    obtain ⟨rfl, rfl⟩ := hxy
    split at hu
    · simp at hu; simp [← hu]
    · cases hu
  by_cases hab : a = b
  · subst hab
    simp at h
    have := hmem []
    simp [h.2] at this
  · simp [hab] at h
    have := hmem []
    simp [h] at this

/-! ### deep enumeration -/

theorem collect_eq_some_iff {α β : Type} {f : α → Option (List β)} {l : List α} {out : List β} :
    collect f l = some out ↔ ∃ parts : List (List β), l.map f = parts.map some ∧ out = parts.flatten := by
  induction l generalizing out with
  | nil =>
    simp only [collect, Option.some.injEq, List.map_nil]
    constructor
    · rintro rfl; exact ⟨[], by simp⟩
    · rintro ⟨parts, h, rfl⟩
      cases parts <;> simp at h ⊢
  | cons a t ih =>
    simp only [collect, Option.bind_eq_bind, Option.bind_eq_some_iff, Option.pure_def, Option.some.injEq]
    constructor
    · rintro ⟨x, hx, y, hy, rfl⟩
      obtain ⟨parts, h, rfl⟩ := ih.mp hy
      exact ⟨x :: parts, by simp [hx, h]⟩
    · rintro ⟨parts, h, rfl⟩
      cases parts with
      | nil => simp at h
      | cons x parts =>
        simp only [List.map_cons, List.cons.injEq] at h
        exact ⟨x, h.1, parts.flatten, ih.mpr ⟨parts, h.2, rfl⟩, by simp⟩

theorem collect_some_of_forall {α β : Type} {f : α → Option (List β)} {l : List α}
    (h : ∀ a ∈ l, (f a).isSome) : (collect f l).isSome := by
  induction l with
  | nil => simp [collect]
  | cons a t ih =>
    obtain ⟨x, hx⟩ := Option.isSome_iff_exists.mp (h a (by simp))
    obtain ⟨y, hy⟩ := Option.isSome_iff_exists.mp (ih fun b hb => h b (by simp [hb]))
    simp [collect, hx, hy]

theorem forall_of_collect_some {α β : Type} {f : α → Option (List β)} {l : List α} {out : List β}
    (h : collect f l = some out) : ∀ a ∈ l, (f a).isSome := by
  induction l generalizing out with
  | nil => simp
  | cons a t ih =>
    simp only [collect, Option.bind_eq_bind, Option.bind_eq_some_iff] at h
    obtain ⟨x, hx, y, hy, _⟩ := h
    intro b hb
    rcases List.mem_cons.mp hb with rfl | hb
    · simp [hx]
    · exact ih hy b hb

theorem mem_collect {α β : Type} {f : α → Option (List β)} {l : List α} {out : List β}
    (h : collect f l = some out) (b : β) : b ∈ out ↔ ∃ a ∈ l, ∃ x, f a = some x ∧ b ∈ x := by
  induction l generalizing out with
  | nil => simp [collect] at h; subst h; simp
  | cons a t ih =>
    simp only [collect, Option.bind_eq_bind, Option.bind_eq_some_iff, Option.pure_def, Option.some.injEq] at h
    obtain ⟨x, hx, y, hy, rfl⟩ := h
    simp only [List.mem_append, List.mem_cons, exists_eq_or_imp, ih hy, hx, Option.some.injEq, exists_eq_left']

/-- A path of forward steps. -/
def fwd (p : List Relationship) : RelPath := p.map fun r => (true, r)
/-- A path of backward steps. -/
def bwd (p : List Relationship) : RelPath := p.map fun r => (false, r)

theorem mem_deepForward {rels : List Relationship} : ∀ (n : Nat) (e : String) (out : List (String × RelPath)),
    deepForwardEntities rels n e = some out → ∀ x q, (x, q) ∈ out ↔
      ∃ p, q = fwd p ∧ p ≠ [] ∧ Chain rels e x p := by
  intro n
  induction n with
  | zero => intro e out h; simp [deepForwardEntities] at h
  | succ n ih =>
    intro e out h x q
    simp only [deepForwardEntities] at h
    rw [mem_collect h]
    constructor
    · rintro ⟨r, hr, l, hl, hm⟩
      obtain ⟨hr1, rfl⟩ := mem_getForward.mp hr
      simp only [Option.bind_eq_bind, Option.bind_eq_some_iff, Option.pure_def, Option.some.injEq] at hl
      obtain ⟨sub, hsub, rfl⟩ := hl
      simp only [List.mem_cons, Prod.mk.injEq, List.mem_map] at hm
      rcases hm with ⟨rfl, rfl⟩ | ⟨⟨x', q'⟩, hm, rfl, rfl⟩
      · exact ⟨[r], rfl, by simp, hr1, rfl, rfl⟩
      · obtain ⟨p, rfl, _, hp⟩ := (ih _ _ hsub _ _).mp hm
        exact ⟨r :: p, rfl, by simp, hr1, rfl, hp⟩
    · rintro ⟨p, rfl, hne, hc⟩
      cases p with
      | nil => exact absurd rfl hne
      | cons r p =>
        obtain ⟨hr, rfl, hc⟩ := hc
        have hmem : r ∈ getForwardRelationships rels r.childE := mem_getForward.mpr ⟨hr, rfl⟩
        refine ⟨r, hmem, ?_⟩
        have := forall_of_collect_some h r hmem
        obtain ⟨l, hl⟩ := Option.isSome_iff_exists.mp this
        refine ⟨l, hl, ?_⟩
        simp only [Option.bind_eq_bind, Option.bind_eq_some_iff, Option.pure_def, Option.some.injEq] at hl
        obtain ⟨sub, hsub, rfl⟩ := hl
        simp only [List.mem_cons, Prod.mk.injEq, List.mem_map]
        cases p with
        | nil => exact Or.inl ⟨Eq.symm hc, rfl⟩
        | cons s p =>
          right
          refine ⟨(x, fwd (s :: p)), (ih _ _ hsub _ _).mpr ⟨s :: p, rfl, by simp, hc⟩, rfl, rfl⟩

theorem deepForward_isSome_iff {rels : List Relationship} : ∀ (n : Nat) (e : String),
    (deepForwardEntities rels n e).isSome ↔ ∀ b p, Chain rels e b p → p.length < n := by
  intro n
  induction n with
  | zero =>
    intro e
    simp only [deepForwardEntities, Option.isSome_none, Bool.false_eq_true, Nat.not_lt_zero, imp_false, false_iff]
    exact fun h => h e [] rfl
  | succ n ih =>
    intro e
    simp only [deepForwardEntities]
    constructor
    · intro h b p hc
      obtain ⟨out, hout⟩ := Option.isSome_iff_exists.mp h
      cases p with
      | nil => simp
      | cons r p =>
        obtain ⟨hr, rfl, hc⟩ := hc
        have := forall_of_collect_some hout r (mem_getForward.mpr ⟨hr, rfl⟩)
        obtain ⟨l, hl⟩ := Option.isSome_iff_exists.mp this
        simp only [Option.bind_eq_bind, Option.bind_eq_some_iff] at hl
        obtain ⟨sub, hsub, _⟩ := hl
        have := (ih r.parentE).mp (by simp [hsub]) _ _ hc
        simp only [List.length_cons]; omega
    · intro h
      apply collect_some_of_forall
      intro r hr
      obtain ⟨hr1, rfl⟩ := mem_getForward.mp hr
      have : (deepForwardEntities rels n r.parentE).isSome := (ih _).mpr fun b p hc => by
        have := h b (r :: p) ⟨hr1, rfl, hc⟩
        simp only [List.length_cons] at this; omega
      obtain ⟨sub, hsub⟩ := Option.isSome_iff_exists.mp this
      simp [hsub]

/-- Backward chains, one step at a time. -/
theorem chain_append {rels : List Relationship} {a b c : String} {p q : List Relationship}
    (h : Chain rels a b p) (h' : Chain rels b c q) : Chain rels a c (p ++ q) := by
  induction p generalizing a with
  | nil => exact (show a = b from h) ▸ h'
  | cons s p ih => exact ⟨h.1, h.2.1, ih h.2.2⟩

theorem chain_split {rels : List Relationship} {a b : String} {p q : List Relationship}
    (h : Chain rels a b (p ++ q)) : ∃ c, Chain rels a c p ∧ Chain rels c b q := by
  induction p generalizing a with
  | nil => exact ⟨a, rfl, h⟩
  | cons s p ih =>
    obtain ⟨c, h1, h2⟩ := ih h.2.2
    exact ⟨c, ⟨h.1, h.2.1, h1⟩, h2⟩

theorem chain_snoc {rels : List Relationship} {a : String} {p : List Relationship} {r : Relationship}
    (h : Chain rels a r.childE p) (hr : r ∈ rels) : Chain rels a r.parentE (p ++ [r]) :=
  chain_append h ⟨hr, rfl, rfl⟩

theorem chain_unsnoc {rels : List Relationship} {a b : String} {p : List Relationship} {r : Relationship}
    (h : Chain rels a b (p ++ [r])) : Chain rels a r.childE p ∧ r ∈ rels ∧ b = r.parentE := by
  obtain ⟨c, h1, h2, rfl, h4⟩ := chain_split h
  exact ⟨h1, h2, Eq.symm h4⟩

theorem mem_deepBackward {rels : List Relationship} : ∀ (n : Nat) (e : String) (out : List (String × RelPath)),
    deepBackwardEntities rels n e = some out → ∀ x q, (x, q) ∈ out ↔
      ∃ p, q = bwd p.reverse ∧ p ≠ [] ∧ Chain rels x e p := by
  intro n
  induction n with
  | zero => intro e out h; simp [deepBackwardEntities] at h
  | succ n ih =>
    intro e out h x q
    simp only [deepBackwardEntities] at h
    rw [mem_collect h]
    constructor
    · rintro ⟨r, hr, l, hl, hm⟩
      obtain ⟨hr1, rfl⟩ := mem_getBackward.mp hr
      simp only [Option.bind_eq_bind, Option.bind_eq_some_iff, Option.pure_def, Option.some.injEq] at hl
      obtain ⟨sub, hsub, rfl⟩ := hl
      simp only [List.mem_cons, Prod.mk.injEq, List.mem_map] at hm
      rcases hm with ⟨rfl, rfl⟩ | ⟨⟨x', q'⟩, hm, rfl, rfl⟩
      · exact ⟨[r], rfl, by simp, hr1, rfl, rfl⟩
      · obtain ⟨p, rfl, _, hp⟩ := (ih _ _ hsub _ _).mp hm
        exact ⟨p ++ [r], by simp [bwd], by simp, chain_snoc hp hr1⟩
    · rintro ⟨p, rfl, hne, hc⟩
      rcases List.eq_nil_or_concat p with rfl | ⟨p, r, rfl⟩
      · exact absurd rfl hne
      · rw [List.concat_eq_append] at hc
        obtain ⟨hc', hr, rfl⟩ := chain_unsnoc hc
        have hmem : r ∈ getBackwardRelationships rels r.parentE := mem_getBackward.mpr ⟨hr, rfl⟩
        refine ⟨r, hmem, ?_⟩
        have := forall_of_collect_some h r hmem
        obtain ⟨l, hl⟩ := Option.isSome_iff_exists.mp this
        refine ⟨l, hl, ?_⟩
        simp only [Option.bind_eq_bind, Option.bind_eq_some_iff, Option.pure_def, Option.some.injEq] at hl
        obtain ⟨sub, hsub, rfl⟩ := hl
        simp only [List.mem_cons, Prod.mk.injEq, List.mem_map]
        by_cases hp : p = []
        · subst hp; exact Or.inl ⟨hc', by simp [bwd]⟩
        · right
          refine ⟨(x, bwd p.reverse), (ih _ _ hsub _ _).mpr ⟨p, rfl, hp, hc'⟩, rfl, by simp [bwd]⟩

theorem deepBackward_isSome_iff {rels : List Relationship} : ∀ (n : Nat) (e : String),
    (deepBackwardEntities rels n e).isSome ↔ ∀ b p, Chain rels b e p → p.length < n := by
  intro n
  induction n with
  | zero =>
    intro e
    simp only [deepBackwardEntities, Option.isSome_none, Bool.false_eq_true, Nat.not_lt_zero, imp_false, false_iff]
    exact fun h => h e [] rfl
  | succ n ih =>
    intro e
    simp only [deepBackwardEntities]
    constructor
    · intro h b p hc
      obtain ⟨out, hout⟩ := Option.isSome_iff_exists.mp h
      rcases List.eq_nil_or_concat p with rfl | ⟨p, r, rfl⟩
      · simp
      · rw [List.concat_eq_append] at hc
        obtain ⟨hc', hr, rfl⟩ := chain_unsnoc hc
        have := forall_of_collect_some hout r (mem_getBackward.mpr ⟨hr, rfl⟩)
        obtain ⟨l, hl⟩ := Option.isSome_iff_exists.mp this
        simp only [Option.bind_eq_bind, Option.bind_eq_some_iff] at hl
        obtain ⟨sub, hsub, _⟩ := hl
        have := (ih r.childE).mp (by simp [hsub]) _ _ hc'
        simp only [List.concat_eq_append, List.length_append, List.length_singleton]; omega
    · intro h
      apply collect_some_of_forall
      intro r hr
      obtain ⟨hr1, rfl⟩ := mem_getBackward.mp hr
      have : (deepBackwardEntities rels n r.childE).isSome := (ih _).mpr fun b p hc => by
        have := h b (p ++ [r]) (chain_snoc hc hr1)
        simp only [List.length_append, List.length_singleton] at this; omega
      obtain ⟨sub, hsub⟩ := Option.isSome_iff_exists.mp this
      simp [hsub]

theorem chain_mem {rels : List Relationship} {a b : String} {p : List Relationship}
    (h : Chain rels a b p) : ∀ r ∈ p, r ∈ rels := by
  induction p generalizing a with
  | nil => simp
  | cons s p ih =>
    intro r hr
    rcases List.mem_cons.mp hr with rfl | hr
    · exact h.1
    · exact ih h.2.2 r hr

/-- In an acyclic graph a chain uses every relationship at most once. -/
theorem chain_nodup_of_acyclic {rels : List Relationship} (hac : Acyclic rels) {a b : String}
    {p : List Relationship} (h : Chain rels a b p) : p.Nodup := by
  induction p generalizing a with
  | nil => simp
  | cons s p ih =>
    rw [List.nodup_cons]
    refine ⟨?_, ih h.2.2⟩
    intro hmem
    obtain ⟨q, t, rfl⟩ := List.append_of_mem hmem
    obtain ⟨c, h1, h2⟩ := chain_split h.2.2
    have := hac s.childE (s :: q) ⟨h.1, rfl, h2.2.1 ▸ h1⟩
    simp at this

theorem nodup_subset_length {α : Type} [DecidableEq α] {l m : List α} (hn : l.Nodup) (hs : ∀ x ∈ l, x ∈ m) :
    l.length ≤ m.length := by
  induction l generalizing m with
  | nil => simp
  | cons a t ih =>
    have hn' := List.nodup_cons.mp hn
    have ha := hs a (by simp)
    have := ih (m := m.erase a) hn'.2 (fun x hx => by
      have hne : x ≠ a := fun h => hn'.1 (h ▸ hx)
      exact (List.mem_erase_of_ne hne).mpr (hs x (by simp [hx])))
    rw [List.length_erase_of_mem ha] at this
    have hpos : 0 < m.length := List.length_pos_of_mem ha
    simp only [List.length_cons]; omega

theorem chain_length_le_of_acyclic {rels : List Relationship} (hac : Acyclic rels) {a b : String}
    {p : List Relationship} (h : Chain rels a b p) : p.length ≤ rels.length :=
  nodup_subset_length (chain_nodup_of_acyclic hac h) (chain_mem h)

end FT
