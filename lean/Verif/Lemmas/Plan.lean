import Verif.Spec.FeatureSet
import Verif.Lemmas.Feature
import Verif.Lemmas.Trie
namespace FT
open Spec

/-! ## values along paths -/
section vals
variable {κ ν : Type} [DecidableEq κ]

/-- The value at a path, or the default. -/
def valueAt (dflt : ν) (p : List κ) (t : Trie κ ν) : ν := (Trie.nodeAt dflt p t).value

theorem nodeAt_append (dflt : ν) (p q : List κ) (t : Trie κ ν) :
    Trie.nodeAt dflt (p ++ q) t = Trie.nodeAt dflt q (Trie.nodeAt dflt p t) := by
  induction p generalizing t with
  | nil => rfl
  | cons k r ih => obtain ⟨v, cs⟩ := t; simp only [List.cons_append, Trie.nodeAt, ih]

theorem valueAt_append (dflt : ν) (p q : List κ) (t : Trie κ ν) :
    valueAt dflt (p ++ q) t = valueAt dflt q (Trie.nodeAt dflt p t) := by
  simp only [valueAt, nodeAt_append]

theorem valueAt_nil (dflt : ν) (t : Trie κ ν) : valueAt dflt [] t = t.value := rfl

theorem valueAt_cons (dflt : ν) (k : κ) (q : List κ) (v : ν) (cs : List (κ × Trie κ ν)) :
    valueAt dflt (k :: q) (.node v cs) = valueAt dflt q ((Trie.child? k cs).getD (Trie.new dflt)) := rfl

theorem valueAt_new (dflt : ν) (q : List κ) : valueAt dflt q (Trie.new dflt) = dflt := by
  induction q with
  | nil => rfl
  | cons k q ih => simp only [Trie.new, valueAt_cons, Trie.child?, Option.getD_none]; exact ih

theorem valueAt_modifyAt_below (dflt : ν) (g : Trie κ ν → Trie κ ν) (p q : List κ) (t : Trie κ ν) :
    valueAt dflt (p ++ q) (Trie.modifyAt dflt g p t) = valueAt dflt q (g (Trie.nodeAt dflt p t)) := by
  induction p generalizing t with
  | nil => rfl
  | cons k r ih =>
    obtain ⟨v, cs⟩ := t
    simp only [List.cons_append, Trie.modifyAt, valueAt_cons, Trie.child?_upsert, if_true, Option.getD_some, ih, Trie.nodeAt]

theorem valueAt_modifyAt_other (dflt : ν) (g : Trie κ ν → Trie κ ν) (p q : List κ) (t : Trie κ ν) (h : ¬ p <+: q) :
    valueAt dflt q (Trie.modifyAt dflt g p t) = valueAt dflt q t := by
  induction p generalizing t q with
  | nil => exact absurd List.nil_prefix h
  | cons k r ih =>
    obtain ⟨v, cs⟩ := t
    cases q with
    | nil => rfl
    | cons k' q =>
      simp only [Trie.modifyAt, valueAt_cons, Trie.child?_upsert]
      by_cases hk : k = k'
      · subst hk
        rw [if_pos rfl, Option.getD_some]
        rw [List.cons_prefix_cons] at h
        exact ih q _ (fun hp => h ⟨rfl, hp⟩)
      · rw [if_neg hk]

@[simp] theorem value_setValue (v : ν) (t : Trie κ ν) : (t.setValue v).value = v := by cases t; rfl
theorem valueAt_setValue_nil (dflt v : ν) (t : Trie κ ν) : valueAt dflt [] (t.setValue v) = v := by
  cases t; rfl
theorem valueAt_setValue_cons (dflt v : ν) (k : κ) (q : List κ) (t : Trie κ ν) :
    valueAt dflt (k :: q) (t.setValue v) = valueAt dflt (k :: q) t := by
  cases t; rfl
end vals

theorem valueAt_markPath (es q : List Edge) (t : FTrie) :
    valueAt NodeVal.empty q (markPath es t) =
      if q ≠ [] ∧ q <+: es then (valueAt NodeVal.empty q t).mark else valueAt NodeVal.empty q t := by
  induction es generalizing q t with
  | nil => cases q <;> simp [markPath]
  | cons e es ih =>
    obtain ⟨v, cs⟩ := t
    cases q with
    | nil => simp [markPath, valueAt_nil, Trie.value]
    | cons k q =>
      simp only [markPath, valueAt_cons, Trie.child?_upsert, List.cons_prefix_cons, ne_eq, reduceCtorEq,
        not_false_eq_true, true_and]
      by_cases hk : e = k
      · subst hk
        simp only [if_true, Option.getD_some, true_and, ih]
        cases q with
        | nil => simp [valueAt_nil]
        | cons k' q => simp [valueAt_setValue_cons]
      · have : ¬ k = e := fun h => hk h.symm
        simp [hk, this]

/-! ## the sequence of registrations -/

/-- One registration: where, which feature, on the full entity or not. -/
abbrev Visit := List Edge × Feat × Bool

mutual
/-- The registrations `addFeature` makes, in order. -/
def visits (unwrap anc : Bool) : Feat → ATrie → List Visit
  | .mk info bases wh, approx =>
    match unwrap, info.kind with
    | true, .slice _ => visitsHead anc bases approx
    | _, _ =>
      let f := Feat.mk info bases wh
      let full := anc || f.usesFull
      if approx.value.contains f.uniqueName then []
      else
        let sub := Trie.nodeAt [] f.path approx
        ([], f, full) :: (visitsList full sub bases ++ visitsList full sub wh).map fun x => (f.path ++ x.1, x.2)
def visitsList (full : Bool) (sub : ATrie) : List Feat → List Visit
  | [] => []
  | d :: ds => visits true full d sub ++ visitsList full sub ds
def visitsHead (anc : Bool) : List Feat → ATrie → List Visit
  | [], _ => []
  | b :: _, sub => visits false anc b sub
end

/-- The effect of one registration on the value at `q`. -/
def effOne (q : List Edge) (v : NodeVal) (x : Visit) : NodeVal :=
  let v1 := if q = x.1 then v.visit x.2.2 x.2.1.uniqueName else v
  if x.2.2 = true ∧ x.1 <+: q ∧ q <+: x.1 ++ x.2.1.path then v1.mark else v1

/-- The effect of a sequence of registrations. -/
def eff (q : List Edge) (xs : List Visit) (v : NodeVal) : NodeVal := xs.foldl (effOne q) v

theorem eff_append (q xs ys v) : eff q (xs ++ ys) v = eff q ys (eff q xs v) := by simp [eff]

theorem eff_prefix (p q : List Edge) (xs : List Visit) (v : NodeVal) :
    eff (p ++ q) (xs.map fun x => (p ++ x.1, x.2)) v = eff q xs v := by
  unfold eff
  rw [List.foldl_map]
  congr 1
  funext v x
  simp only [effOne, List.append_cancel_left_eq, List.append_assoc, List.prefix_append_right_inj]

theorem eff_other (p q : List Edge) (xs : List Visit) (v : NodeVal) (h : ¬ p <+: q) :
    eff q (xs.map fun x => (p ++ x.1, x.2)) v = v := by
  induction xs generalizing v with
  | nil => rfl
  | cons x xs ih =>
    simp only [eff, List.map_cons, List.foldl_cons]
    have h1 : ¬ q = p ++ x.1 := by rintro rfl; exact h (List.prefix_append _ _)
    have h2 : ¬ (p ++ x.1 <+: q) := fun h' => h ((List.prefix_append _ _).trans h')
    have : effOne q v (p ++ x.1, x.2) = v := by simp [effOne, h1, h2]
    rw [this]
    exact ih v

theorem valueAt_register (q : List Edge) (full : Bool) (f : Feat) (t : FTrie) :
    valueAt NodeVal.empty q (register full f.uniqueName f.path t) = effOne q (valueAt NodeVal.empty q t) ([], f, full) := by
  unfold register effOne
  have hv : valueAt NodeVal.empty q (t.setValue (t.value.visit full f.uniqueName)) =
      if q = [] then (valueAt NodeVal.empty q t).visit full f.uniqueName else valueAt NodeVal.empty q t := by
    cases q with
    | nil => simp [valueAt_nil]
    | cons k q => simp [valueAt_setValue_cons]
  cases full with
  | true =>
    simp only [if_true, valueAt_markPath, List.nil_append, List.nil_prefix, true_and, hv]
    by_cases hq : q = []
    · subst hq; simp [NodeVal.visit, NodeVal.mark]
    · simp [hq]
  | false =>
    simp only [Bool.false_eq_true, if_false, false_and]
    rw [← hv]
    by_cases hp : f.path <+: q
    · obtain ⟨r, rfl⟩ := hp
      rw [valueAt_modifyAt_below]; simp only [id_eq, ← valueAt_append]
    · rw [valueAt_modifyAt_other _ _ _ _ _ hp]

theorem valueAt_modify_visits (path : List Edge) (g : FTrie → FTrie) (xs : List Visit)
    (hg : ∀ q t, valueAt NodeVal.empty q (g t) = eff q xs (valueAt NodeVal.empty q t)) (q : List Edge) (t : FTrie) :
    valueAt NodeVal.empty q (Trie.modifyAt NodeVal.empty g path t) =
      eff q (xs.map fun x => (path ++ x.1, x.2)) (valueAt NodeVal.empty q t) := by
  by_cases hp : path <+: q
  · obtain ⟨r, rfl⟩ := hp
    rw [valueAt_modifyAt_below, hg, eff_prefix, valueAt_append]
  · rw [valueAt_modifyAt_other _ _ _ _ _ hp, eff_other _ _ _ _ hp]

mutual
theorem valueAt_addFeature (u anc : Bool) : ∀ (f : Feat) (approx : ATrie) (q : List Edge) (t : FTrie),
    valueAt NodeVal.empty q (addFeature u anc f approx t) =
      eff q (visits u anc f approx) (valueAt NodeVal.empty q t)
  | .mk info bases wh, approx, q, t => by
    by_cases hs : u = true ∧ ∃ n, info.kind = .slice n
    · obtain ⟨rfl, n, hn⟩ := hs
      rw [addFeature.eq_1 _ _ _ _ _ _ n hn, visits.eq_1 _ _ _ _ _ n hn]
      exact valueAt_addHead anc bases approx q t
    · have hs' : ∀ n, u = true → info.kind = .slice n → False := fun n h1 h2 => hs ⟨h1, n, h2⟩
      rw [addFeature.eq_2 _ _ _ _ _ _ _ hs', visits.eq_2 _ _ _ _ _ _ hs']
      simp only
      split
      · rfl
      · rw [List.map_append, valueAt_addDeps _ _ _ wh, valueAt_addDeps _ _ _ bases, valueAt_register]
        show _ = eff q (_ ++ _) (effOne q _ _)
        rw [eff_append]
theorem valueAt_addDeps (full : Bool) (path : List Edge) (sub : ATrie) : ∀ (ds : List Feat) (q : List Edge) (t : FTrie),
    valueAt NodeVal.empty q (addDeps full path sub ds t) =
      eff q ((visitsList full sub ds).map fun x => (path ++ x.1, x.2)) (valueAt NodeVal.empty q t)
  | [], q, t => by simp [addDeps, visitsList, eff]
  | d :: ds, q, t => by
    rw [addDeps, visitsList, List.map_append, eff_append, valueAt_addDeps full path sub ds]
    rw [valueAt_modify_visits path _ (visits true full d sub) (fun q t => valueAt_addFeature true full d sub q t)]
theorem valueAt_addHead (anc : Bool) : ∀ (bs : List Feat) (approx : ATrie) (q : List Edge) (t : FTrie),
    valueAt NodeVal.empty q (addHead anc bs approx t) = eff q (visitsHead anc bs approx) (valueAt NodeVal.empty q t)
  | [], _, q, t => by simp [addHead, visitsHead, eff]
  | b :: _, approx, q, t => by rw [addHead, visitsHead]; exact valueAt_addFeature false anc b approx q t
end

theorem valueAt_buildTrie (targets : List Feat) (approx : ATrie) (q : List Edge) :
    valueAt NodeVal.empty q (buildTrie targets approx) =
      eff q (targets.flatMap fun f => visits false false f approx) NodeVal.empty := by
  unfold buildTrie
  suffices ∀ t : FTrie, valueAt NodeVal.empty q (targets.foldl (fun t f => addFeature false false f approx t) t) =
      eff q (targets.flatMap fun f => visits false false f approx) (valueAt NodeVal.empty q t) by
    rw [this, valueAt_new]
  induction targets with
  | nil => intro t; rfl
  | cons f fs ih =>
    intro t
    rw [List.foldl_cons, ih, List.flatMap_cons, eff_append, valueAt_addFeature]

/-! ## what a sequence of registrations leaves behind -/

theorem mem_setAdd (s : List String) (n m : String) : m ∈ setAdd s n ↔ m ∈ s ∨ m = n := by
  unfold setAdd
  split
  · rename_i h
    simp only [List.contains_eq_mem, decide_eq_true_eq] at h
    constructor
    · exact .inl
    · rintro (h' | rfl) <;> assumption
  · simp

theorem mem_setRemove (s : List String) (n m : String) : m ∈ setRemove s n ↔ m ∈ s ∧ m ≠ n := by
  simp [setRemove]

theorem effOne_full (q : List Edge) (v : NodeVal) (x : Visit) (n : String) :
    n ∈ (effOne q v x).full ↔ n ∈ v.full ∨ (q = x.1 ∧ x.2.2 = true ∧ n = x.2.1.uniqueName) := by
  have hm : ∀ w : NodeVal, (if x.2.2 = true ∧ x.1 <+: q ∧ q <+: x.1 ++ x.2.1.path then w.mark else w).full = w.full := by
    intro w; split <;> rfl
  unfold effOne
  simp only [hm]
  by_cases hq : q = x.1
  · simp only [hq, if_true, true_and]
    cases hf : x.2.2 with
    | true => simp [NodeVal.visit, mem_setAdd]
    | false =>
      simp only [NodeVal.visit, Bool.false_eq_true, if_false, false_and, or_false]
      split <;> rfl
  · simp [hq]

theorem effOne_notFull (q : List Edge) (v : NodeVal) (x : Visit) (n : String) (hd : n ∈ v.full → n ∉ v.notFull) :
    n ∈ (effOne q v x).notFull ↔
      (n ∈ v.notFull ∨ (q = x.1 ∧ n = x.2.1.uniqueName)) ∧ n ∉ (effOne q v x).full := by
  rw [effOne_full]
  have hm : ∀ w : NodeVal, (if x.2.2 = true ∧ x.1 <+: q ∧ q <+: x.1 ++ x.2.1.path then w.mark else w).notFull = w.notFull := by
    intro w; split <;> rfl
  unfold effOne
  simp only [hm]
  by_cases hq : q = x.1
  · simp only [hq, if_true, true_and]
    cases hf : x.2.2 with
    | true =>
      simp only [NodeVal.visit, if_true, mem_setRemove, true_and]
      constructor
      · rintro ⟨h1, h2⟩
        exact ⟨.inl h1, fun h => h.elim (fun h => hd h h1) h2⟩
      · rintro ⟨h1 | h1, h2⟩
        · exact ⟨h1, fun h => h2 (.inr h)⟩
        · exact absurd (.inr h1) h2
    | false =>
      simp only [NodeVal.visit, Bool.false_eq_true, if_false, false_and, or_false, List.contains_eq_mem, decide_eq_true_eq]
      split
      · rename_i h
        constructor
        · intro h1; exact ⟨.inl h1, fun h' => hd h' h1⟩
        · rintro ⟨h1 | h1, h2⟩
          · exact h1
          · exact absurd (h1 ▸ h) h2
      · rename_i h
        simp only [mem_setAdd]
        constructor
        · rintro (h1 | h1)
          · exact ⟨.inl h1, fun h' => hd h' h1⟩
          · exact ⟨.inr h1, h1 ▸ h⟩
        · rintro ⟨h1, _⟩; exact h1
  · simp only [hq, if_false, false_and, or_false]
    constructor
    · intro h1; exact ⟨h1, fun h' => hd h' h1⟩
    · exact fun h => h.1

theorem effOne_need (q : List Edge) (v : NodeVal) (x : Visit) :
    (effOne q v x).need = true ↔ v.need = true ∨ (x.2.2 = true ∧ x.1 <+: q ∧ q <+: x.1 ++ x.2.1.path) := by
  unfold effOne
  by_cases h : x.2.2 = true ∧ x.1 <+: q ∧ q <+: x.1 ++ x.2.1.path
  · simp [h, NodeVal.mark]
  · simp only [h, if_false, or_false]
    by_cases hq : q = x.1
    · simp only [hq, if_true]
      have hf : x.2.2 = false := by
        cases hf : x.2.2 with
        | false => rfl
        | true => exact absurd ⟨hf, by rw [hq]; exact List.prefix_refl _, by rw [hq]; exact List.prefix_append _ _⟩ h
      rw [hf]
      simp only [NodeVal.visit, Bool.false_eq_true, if_false]
      split <;> rfl
    · simp [hq]

theorem eff_spec (q : List Edge) (xs : List Visit) : ∀ v : NodeVal, (∀ n, n ∈ v.full → n ∉ v.notFull) →
    (∀ n, n ∈ (eff q xs v).full ↔ n ∈ v.full ∨ ∃ x ∈ xs, q = x.1 ∧ x.2.2 = true ∧ n = x.2.1.uniqueName) ∧
    (∀ n, n ∈ (eff q xs v).notFull ↔
      (n ∈ v.notFull ∨ ∃ x ∈ xs, q = x.1 ∧ n = x.2.1.uniqueName) ∧ n ∉ (eff q xs v).full) ∧
    ((eff q xs v).need = true ↔ v.need = true ∨ ∃ x ∈ xs, x.2.2 = true ∧ x.1 <+: q ∧ q <+: x.1 ++ x.2.1.path) := by
  induction xs with
  | nil =>
    intro v hd
    simp only [eff, List.foldl_nil, List.not_mem_nil, false_and, exists_false, or_false, true_and, implies_true, and_true]
    exact fun n => ⟨fun h => ⟨h, fun h' => hd n h' h⟩, fun h => h.1⟩
  | cons x xs ih =>
    intro v hd
    have hd1 : ∀ n, n ∈ (effOne q v x).full → n ∉ (effOne q v x).notFull := by
      intro n h1 h2
      exact ((effOne_notFull q v x n (hd n)).mp h2).2 h1
    obtain ⟨h1, h2, h3⟩ := ih (effOne q v x) hd1
    show (∀ n, n ∈ (eff q xs (effOne q v x)).full ↔ _) ∧ (∀ n, n ∈ (eff q xs (effOne q v x)).notFull ↔ _ ∧ n ∉ (eff q xs (effOne q v x)).full) ∧
      ((eff q xs (effOne q v x)).need = true ↔ _)
    refine ⟨fun n => ?_, fun n => ?_, ?_⟩
    · rw [h1, effOne_full]
      simp only [List.mem_cons, or_and_right, exists_or, exists_eq_left, or_assoc]
    · rw [h2]
      constructor
      · rintro ⟨h, hn⟩
        refine ⟨?_, hn⟩
        rcases h with h | ⟨y, hy, h⟩
        · rcases ((effOne_notFull q v x n (hd n)).mp h).1 with h | h
          · exact .inl h
          · exact .inr ⟨x, by simp, h⟩
        · exact .inr ⟨y, by simp [hy], h⟩
      · rintro ⟨h, hn⟩
        refine ⟨?_, hn⟩
        have hn' : n ∉ (effOne q v x).full := fun h' => hn ((h1 n).mpr (.inl h'))
        rcases h with h | ⟨y, hy, h⟩
        · exact .inl ((effOne_notFull q v x n (hd n)).mpr ⟨.inl h, hn'⟩)
        · rcases List.mem_cons.mp hy with rfl | hy
          · exact .inl ((effOne_notFull q v _ n (hd n)).mpr ⟨.inr h, hn'⟩)
          · exact .inr ⟨y, hy, h⟩
    · rw [h3, effOne_need]
      simp only [List.mem_cons, or_and_right, exists_or, exists_eq_left, or_assoc]

/-! ## registrations and planned features -/

theorem visits_slice (anc : Bool) (f : Feat) (approx : ATrie) (n : Nat) (h : f.kind = .slice n) :
    visits true anc f approx = visitsHead anc f.bases approx := by
  cases f with
  | mk info bases wh => exact visits.eq_1 _ _ _ _ _ n h

theorem visits_main (u anc : Bool) (f : Feat) (approx : ATrie) (h : ∀ n, u = true → f.kind = .slice n → False) :
    visits u anc f approx = if f.uniqueName ∈ approx.value then [] else
      ([], f, anc || f.usesFull) ::
        (visitsList (anc || f.usesFull) (Trie.nodeAt [] f.path approx) f.bases ++
         visitsList (anc || f.usesFull) (Trie.nodeAt [] f.path approx) f.wh).map fun x => (f.path ++ x.1, x.2) := by
  cases f with
  | mk info bases wh =>
    have h' : ∀ n, u = true → info.kind = .slice n → False := h
    rw [visits.eq_2 _ _ _ _ _ _ h']
    simp only [List.contains_eq_mem, decide_eq_true_eq]
    rfl

theorem mem_visitsList (full : Bool) (sub : ATrie) (x : Visit) : ∀ ds : List Feat,
    x ∈ visitsList full sub ds ↔ ∃ d ∈ ds, x ∈ visits true full d sub
  | [] => by simp [visitsList]
  | d :: ds => by
    rw [visitsList, List.mem_append, mem_visitsList full sub x ds]
    simp only [List.mem_cons, or_and_right, exists_or, exists_eq_left]

/-- The registrations of a dependency are those of the unsliced feature. -/
theorem visits_unslice (full : Bool) (d : Feat) (sub : ATrie) (x : Visit) :
    x ∈ visits true full d sub ↔ ∃ e, unslice d = some e ∧ x ∈ visits false full e sub := by
  by_cases h : ∃ n, d.kind = .slice n
  · obtain ⟨n, hn⟩ := h
    rw [visits_slice full d sub n hn]
    simp only [unslice, hn]
    cases hb : d.bases with
    | nil => simp [visitsHead]
    | cons b bs => simp [visitsHead]
  · have h' : ∀ n, d.kind = .slice n → False := fun n hn => h ⟨n, hn⟩
    rw [visits_main true full d sub (fun n _ hn => h' n hn)]
    have hu : unslice d = some d := by
      unfold unslice
      split
      · rename_i n hn; exact absurd hn (h' n)
      · rfl
    simp only [hu, Option.some.injEq, exists_eq_left']
    rw [visits_main false full d sub (fun n h _ => by cases h)]

theorem unslice_size {d e : Feat} (h : unslice d = some e) : e.size ≤ d.size := by
  unfold unslice at h
  split at h
  · have : e ∈ d.deps := Feat.mem_deps.mpr (.inl (List.mem_of_head? h))
    exact Nat.le_of_lt (Feat.size_dep this)
  · cases h; exact Nat.le_refl _

/-- Membership in the registrations of a feature, one level unfolded. -/
theorem mem_visits (anc : Bool) (f : Feat) (approx : ATrie) (x : Visit) :
    x ∈ visits false anc f approx ↔ f.uniqueName ∉ approx.value ∧
      (x = ([], f, anc || f.usesFull) ∨ ∃ d ∈ f.deps, ∃ e, unslice d = some e ∧
        ∃ y ∈ visits false (anc || f.usesFull) e (Trie.nodeAt [] f.path approx), x = (f.path ++ y.1, y.2)) := by
  rw [visits_main false anc f approx (fun n h _ => by cases h)]
  split
  · rename_i h; simp [h]
  · rename_i h
    simp only [List.mem_cons, List.mem_map, List.mem_append, mem_visitsList, h, not_false_eq_true, true_and]
    constructor
    · rintro (h | ⟨y, ⟨d, hd, hy⟩ | ⟨d, hd, hy⟩, rfl⟩)
      · exact .inl h
      · obtain ⟨e, he, hy⟩ := (visits_unslice ..).mp hy
        exact .inr ⟨d, Feat.mem_deps.mpr (.inl hd), e, he, y, hy, rfl⟩
      · obtain ⟨e, he, hy⟩ := (visits_unslice ..).mp hy
        exact .inr ⟨d, Feat.mem_deps.mpr (.inr hd), e, he, y, hy, rfl⟩
    · rintro (h | ⟨d, hd, e, he, y, hy, rfl⟩)
      · exact .inl h
      · right
        have hy' := (visits_unslice _ d _ y).mpr ⟨e, he, hy⟩
        rcases Feat.mem_deps.mp hd with hd | hd
        · exact ⟨y, .inl ⟨d, hd, hy'⟩, rfl⟩
        · exact ⟨y, .inr ⟨d, hd, hy'⟩, rfl⟩

theorem visits_planned (targets : List Feat) (root : ATrie) : ∀ (n : Nat) (f : Feat) (anc : Bool) (p0 : List Edge), f.size ≤ n →
    (f.uniqueName ∉ hiddenBy root p0 → Planned targets (hiddenBy root) p0 f (anc || f.usesFull)) →
    ∀ x ∈ visits false anc f (Trie.nodeAt [] p0 root), Planned targets (hiddenBy root) (p0 ++ x.1) x.2.1 x.2.2 := by
  intro n
  induction n with
  | zero => intro f _ _ h; have := f.size_pos; omega
  | succ n ih =>
    intro f anc p0 hn hstart x hx
    rw [mem_visits] at hx
    obtain ⟨hh, hx⟩ := hx
    have hf := hstart hh
    rcases hx with rfl | ⟨d, hd, e, he, y, hy, rfl⟩
    · simpa using hf
    · rw [← nodeAt_append] at hy
      have := ih e (anc || f.usesFull) (p0 ++ f.path) (by have := unslice_size he; have := Feat.size_dep hd; omega)
        (fun hne => .dep hf (Feat.mem_deps.mp hd) he hne) y hy
      simpa [List.append_assoc] using this

theorem visits_closed (d : Feat) (e : Feat) (he : unslice d = some e) : ∀ (n : Nat) (f : Feat) (anc : Bool) (approx : ATrie),
    f.size ≤ n → ∀ q g full, (q, g, full) ∈ visits false anc f approx → d ∈ g.deps →
    e.uniqueName ∉ hiddenBy approx (q ++ g.path) → (q ++ g.path, e, full || e.usesFull) ∈ visits false anc f approx := by
  intro n
  induction n with
  | zero => intro f _ _ h; have := f.size_pos; omega
  | succ n ih =>
    intro f anc approx hn q g full hx hd hh
    rw [mem_visits] at hx ⊢
    obtain ⟨hf, hx⟩ := hx
    refine ⟨hf, .inr ?_⟩
    rcases hx with hx | ⟨d', hd', e', he', y, hy, hx⟩
    · cases hx
      refine ⟨d, hd, e, he, ([], e, _), (mem_visits ..).mpr ⟨?_, .inl rfl⟩, by simp⟩
      simpa [hiddenBy] using hh
    · obtain ⟨q', g', full'⟩ := y
      cases hx
      refine ⟨d', hd', e', he', (q' ++ g.path, e, full || e.usesFull), ?_, by simp [List.append_assoc]⟩
      refine ih e' _ _ (by have := unslice_size he'; have := Feat.size_dep hd'; omega) q' g full hy hd ?_
      simp only [hiddenBy, ← nodeAt_append, List.append_assoc] at hh ⊢
      exact hh

/-- The registrations made for a list of targets are exactly the planned features. -/
theorem mem_visits_iff (targets : List Feat) (approx : ATrie) (q : List Edge) (g : Feat) (full : Bool) :
    (q, g, full) ∈ (targets.flatMap fun f => visits false false f approx) ↔ Planned targets (hiddenBy approx) q g full := by
  constructor
  · intro h
    obtain ⟨f, hf, hx⟩ := List.mem_flatMap.mp h
    have := visits_planned targets approx f.size f false [] (Nat.le_refl _)
      (fun hh => by simpa using Planned.target hf hh) (q, g, full) hx
    simpa using this
  · intro h
    induction h with
    | target hf hh =>
      refine List.mem_flatMap.mpr ⟨_, hf, (mem_visits ..).mpr ⟨hh, .inl ?_⟩⟩
      simp
    | dep _ hd he hh ih =>
      obtain ⟨f, hf, hx⟩ := List.mem_flatMap.mp ih
      exact List.mem_flatMap.mpr ⟨f, hf, visits_closed _ _ he f.size f false approx (Nat.le_refl _) _ _ _ hx
        (Feat.mem_deps.mpr hd) hh⟩

/-- The plan, characterised. -/
theorem buildTrie_spec (targets : List Feat) (approx : ATrie) (q : List Edge) :
    (∀ n, n ∈ (planAt (buildTrie targets approx) q).full ↔
      ∃ g, Planned targets (hiddenBy approx) q g true ∧ n = g.uniqueName) ∧
    (∀ n, n ∈ (planAt (buildTrie targets approx) q).notFull ↔
      (∃ g full, Planned targets (hiddenBy approx) q g full ∧ n = g.uniqueName) ∧
      n ∉ (planAt (buildTrie targets approx) q).full) ∧
    ((planAt (buildTrie targets approx) q).need = true ↔
      ∃ p g, Planned targets (hiddenBy approx) p g true ∧ p <+: q ∧ q <+: p ++ g.path) := by
  obtain ⟨h1, h2, h3⟩ := eff_spec q (targets.flatMap fun f => visits false false f approx) NodeVal.empty (by simp [NodeVal.empty])
  rw [← valueAt_buildTrie] at h1 h2 h3
  refine ⟨fun n => ?_, fun n => ?_, ?_⟩
  · refine (h1 n).trans ?_
    simp only [NodeVal.empty, List.not_mem_nil, false_or]
    constructor
    · rintro ⟨⟨p, g, b⟩, hx, rfl, hb, hn⟩
      cases hb
      exact ⟨g, (mem_visits_iff ..).mp hx, hn⟩
    · rintro ⟨g, hg, hn⟩
      exact ⟨(q, g, true), (mem_visits_iff ..).mpr hg, rfl, rfl, hn⟩
  · refine (h2 n).trans ?_
    simp only [NodeVal.empty, List.not_mem_nil, false_or]
    refine and_congr_left fun _ => ?_
    constructor
    · rintro ⟨⟨p, g, b⟩, hx, rfl, hn⟩
      exact ⟨g, b, (mem_visits_iff ..).mp hx, hn⟩
    · rintro ⟨g, b, hg, hn⟩
      exact ⟨(q, g, b), (mem_visits_iff ..).mpr hg, rfl, hn⟩
  · refine h3.trans ?_
    simp only [NodeVal.empty, Bool.false_eq_true, false_or]
    constructor
    · rintro ⟨⟨p, g, b⟩, hx, hb, h4, h5⟩
      cases hb
      exact ⟨p, g, (mem_visits_iff ..).mp hx, h4, h5⟩
    · rintro ⟨p, g, hg, h4, h5⟩
      exact ⟨(p, g, true), (mem_visits_iff ..).mpr hg, rfl, h4, h5⟩

end FT
