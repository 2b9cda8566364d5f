import Verif.Spec.Trie
namespace FT.Trie
open FT.Spec

variable {κ ν : Type} [DecidableEq κ]

/-- Value stored at a path, if the node exists. -/
def lookup? : List κ → Trie κ ν → Option ν
  | [], t => some t.value
  | k :: rest, .node _ cs => (child? k cs).bind (lookup? rest)

theorem child?_upsert (k k' : κ) (g : Trie κ ν → Trie κ ν) (i : Trie κ ν) (cs) :
    child? k' (upsert k g i cs) =
      if k = k' then some (g ((child? k cs).getD i)) else child? k' cs := by
  induction cs with
  | nil => simp [upsert, child?]
  | cons c cs ih =>
    obtain ⟨k0, t⟩ := c
    simp only [upsert]
    by_cases h0 : k0 = k
    · subst h0
      by_cases h : k0 = k' <;> simp [child?, h]
    · by_cases h : k = k'
      · subst h; simp [child?, h0, ih]
      · simp [child?, h0, h, ih]

theorem lookup?_new (dflt : ν) (p : List κ) :
    lookup? p (new dflt) = if p = [] then some dflt else none := by
  cases p <;> simp [lookup?, new, child?, value]

theorem lookup?_modifyAt (dflt : ν) (f : Trie κ ν → Trie κ ν)
    (hf : ∀ t k r, lookup? (k :: r) (f t) = lookup? (k :: r) t) (p : List κ) :
    ∀ (t : Trie κ ν) (q : List κ),
    lookup? q (modifyAt dflt f p t) =
      if q = p then some (f (nodeAt dflt p t)).value
      else if q <+: p then some ((lookup? q t).getD dflt) else lookup? q t := by
  induction p with
  | nil =>
    intro t q
    cases q with
    | nil => simp [modifyAt, lookup?, nodeAt]
    | cons k r => simp [modifyAt, hf]
  | cons k rest ih =>
    intro t q
    obtain ⟨v, cs⟩ := t
    cases q with
    | nil => simp [modifyAt, lookup?, value]
    | cons k' r =>
      simp only [modifyAt, lookup?, child?_upsert, nodeAt, List.cons_prefix_cons, List.cons.injEq]
      by_cases h : k = k'
      · subst h
        simp only [if_true, Option.bind_some, ih, true_and]
        by_cases hr : r = rest
        · simp [hr]
        · by_cases hp : r <+: rest
          · simp only [hr, hp, if_false, if_true]
            cases hc : child? k cs with
            | none => simp only [Option.getD_none, Option.bind_none, lookup?_new]; split <;> simp
            | some c => simp
          · simp only [hr, hp, if_false]
            cases hc : child? k cs with
            | none =>
              have : r ≠ [] := by rintro rfl; exact hp List.nil_prefix
              simp [lookup?_new, this]
            | some c => simp
      · have h' : ¬ k' = k := fun e => h e.symm
        simp [h, h']

theorem nodeAt_value (dflt : ν) (p : List κ) : ∀ t : Trie κ ν,
    (nodeAt dflt p t).value = (lookup? p t).getD dflt := by
  induction p with
  | nil => intro t; simp [nodeAt, lookup?]
  | cons k r ih =>
    rintro ⟨v, cs⟩
    simp only [nodeAt, lookup?, ih]
    cases child? k cs with
    | none => simp [lookup?_new]; split <;> rfl
    | some c => simp

theorem lookup?_step (dflt : ν) (t : Trie κ ν) (op : Op κ ν) (q : List κ) :
    lookup? q (step dflt t op) =
      match op with
      | .get p => if q <+: p then some ((lookup? q t).getD dflt) else lookup? q t
      | .set p v => if q = p then some v
                    else if q <+: p then some ((lookup? q t).getD dflt) else lookup? q t := by
  cases op with
  | get p =>
    simp only [step]
    rw [lookup?_modifyAt dflt id (by simp)]
    by_cases h : q = p
    · subst h; simp [nodeAt_value]
    · simp [h]
  | set p v =>
    simp only [step]
    rw [lookup?_modifyAt dflt (setValue v)]
    · by_cases h : q = p
      · subst h; simp [setValue, value]; cases nodeAt dflt q t; rfl
      · simp [h]
    · rintro ⟨v0, cs⟩ k r; rfl

theorem lookup?_foldl (dflt : ν) (ops : List (Op κ ν)) (q : List κ) : ∀ t : Trie κ ν,
    lookup? q (ops.foldl (step dflt) t) =
      if (lookup? q t).isSome ∨ ∃ op ∈ ops, q <+: opPath op
      then some (lastAssigned ((lookup? q t).getD dflt) q ops) else none := by
  have key : ∀ (d : ν) (v : ν), True := fun _ _ => trivial
  induction ops with
  | nil =>
    intro t
    cases h : lookup? q t <;> simp [lastAssigned, h]
  | cons op ops ih =>
    intro t
    rw [List.foldl_cons, ih, lookup?_step]
    cases op with
    | get p =>
      by_cases hp : q <+: p
      · simp [hp, opPath, lastAssigned]
      · simp [hp, opPath, lastAssigned]
    | set p v =>
      by_cases he : q = p
      · subst he; simp [opPath, lastAssigned]
      · have he' : ¬ p = q := fun e => he e.symm
        by_cases hp : q <+: p
        · simp [hp, he, he', opPath, lastAssigned]
        · simp [hp, he, he', opPath, lastAssigned]

theorem lookup?_run (dflt : ν) (ops : List (Op κ ν)) (q : List κ) (v : ν) :
    lookup? q (run dflt ops) = some v ↔ Touched q ops ∧ v = lastAssigned dflt q ops := by
  rw [run, lookup?_foldl, lookup?_new]
  unfold Touched
  by_cases hq : q = []
  · subst hq; simp [eq_comm]
  · by_cases h : ∃ op ∈ ops, q <+: opPath op
    · simp [hq, h, eq_comm]
    · simp [hq, h]

theorem nodeAt_value_run (dflt : ν) (ops : List (Op κ ν)) (q : List κ) :
    (nodeAt dflt q (run dflt ops)).value = lastAssigned dflt q ops := by
  rw [nodeAt_value, run, lookup?_foldl, lookup?_new]
  by_cases hq : q = []
  · subst hq; simp
  · by_cases h : ∃ op ∈ ops, q <+: opPath op
    · simp [hq, h]
    · simp only [hq, if_false, h, or_self, Option.isSome_none, Bool.false_eq_true, Option.getD_none]
      clear hq
      induction ops with
      | nil => rfl
      | cons op ops ih =>
        have h1 : ¬ ∃ op ∈ ops, q <+: opPath op := by
          rintro ⟨o, ho, h2⟩; exact h ⟨o, by simp [ho], h2⟩
        cases op with
        | get p => simpa [lastAssigned] using ih h1
        | set p v =>
          have : ¬ p = q := by
            rintro rfl; exact h ⟨.set p v, by simp, by simp [opPath]⟩
          simpa [lastAssigned, this] using ih h1

/-! ### Well-formedness: keys of a node are distinct -/

mutual
def WF : Trie κ ν → Prop
  | .node _ cs => (cs.map Prod.fst).Nodup ∧ WFs cs
def WFs : List (κ × Trie κ ν) → Prop
  | [] => True
  | (_, t) :: cs => WF t ∧ WFs cs
end

omit [DecidableEq κ] in
theorem WFs_iff (cs : List (κ × Trie κ ν)) : WFs cs ↔ ∀ c ∈ cs, WF c.2 := by
  induction cs with
  | nil => simp [WFs]
  | cons c cs ih => obtain ⟨k, t⟩ := c; simp [WFs, ih]

theorem mem_keys_upsert (k : κ) (g) (i : Trie κ ν) (cs) (x : κ) :
    x ∈ (upsert k g i cs).map Prod.fst ↔ x = k ∨ x ∈ cs.map Prod.fst := by
  induction cs with
  | nil => simp [upsert]
  | cons c cs ih =>
    obtain ⟨k', t⟩ := c
    simp only [upsert]
    by_cases h : k' = k
    · subst h; simp
    · simp only [h, if_false, List.map_cons, List.mem_cons, ih]
      constructor
      · rintro (h | h | h) <;> simp [h]
      · rintro (h | h | h) <;> simp [h]

theorem nodup_upsert (k : κ) (g) (i : Trie κ ν) (cs) (h : (cs.map Prod.fst).Nodup) :
    ((upsert k g i cs).map Prod.fst).Nodup := by
  induction cs with
  | nil => simp [upsert]
  | cons c cs ih =>
    obtain ⟨k', t⟩ := c
    simp only [List.map_cons, List.nodup_cons] at h
    simp only [upsert]
    by_cases h0 : k' = k
    · simpa [h0] using (by simpa [h0] using h : _ ∧ _)
    · simp only [h0, if_false, List.map_cons, List.nodup_cons]
      refine ⟨?_, ih h.2⟩
      rw [mem_keys_upsert]
      rintro (e | e)
      · exact h0 e
      · exact h.1 e

theorem WFs_upsert (k : κ) (g) (i : Trie κ ν) (cs) (h : WFs cs) (hi : WF i)
    (hg : ∀ t, WF t → WF (g t)) : WFs (upsert k g i cs) := by
  induction cs with
  | nil => simp [upsert, WFs, hg i hi]
  | cons c cs ih =>
    obtain ⟨k', t⟩ := c
    simp only [WFs] at h
    simp only [upsert]
    split
    · exact ⟨hg _ h.1, h.2⟩
    · exact ⟨h.1, ih h.2⟩

omit [DecidableEq κ] in
theorem WF_new (dflt : ν) : WF (new dflt : Trie κ ν) := by simp [new, WF, WFs]

theorem WF_modifyAt (dflt : ν) (f : Trie κ ν → Trie κ ν) (hf : ∀ t, WF t → WF (f t)) (p : List κ) :
    ∀ t : Trie κ ν, WF t → WF (modifyAt dflt f p t) := by
  induction p with
  | nil => intro t h; exact hf t h
  | cons k r ih =>
    rintro ⟨v, cs⟩ ⟨h1, h2⟩
    exact ⟨nodup_upsert _ _ _ _ h1, WFs_upsert _ _ _ _ h2 (WF_new _) ih⟩

theorem WF_run (dflt : ν) (ops : List (Op κ ν)) : WF (run dflt ops) := by
  suffices ∀ t : Trie κ ν, WF t → WF (ops.foldl (step dflt) t) from this _ (WF_new _)
  induction ops with
  | nil => intro t h; exact h
  | cons op ops ih =>
    intro t h
    apply ih
    cases op with
    | get p => exact WF_modifyAt _ _ (fun _ h => h) _ _ h
    | set p v =>
      refine WF_modifyAt _ _ ?_ _ _ h
      rintro ⟨v0, cs⟩ h; exact h

theorem child?_mem {k : κ} {cs : List (κ × Trie κ ν)} {t} (h : child? k cs = some t) : (k, t) ∈ cs := by
  induction cs with
  | nil => simp [child?] at h
  | cons c cs ih =>
    obtain ⟨k', t'⟩ := c
    simp only [child?] at h
    split at h
    · rename_i e; subst e; simp at h; simp [h]
    · simp [ih h]

theorem child?_of_mem {k : κ} {cs : List (κ × Trie κ ν)} {t} (hn : (cs.map Prod.fst).Nodup)
    (h : (k, t) ∈ cs) : child? k cs = some t := by
  induction cs with
  | nil => simp at h
  | cons c cs ih =>
    obtain ⟨k', t'⟩ := c
    simp only [List.map_cons, List.nodup_cons] at hn
    simp only [child?]
    rcases List.mem_cons.mp h with h | h
    · injection h with h1 h2; subst h1; subst h2; simp
    · have : k' ≠ k := by
        rintro rfl; exact hn.1 (List.mem_map_of_mem (f := Prod.fst) h)
      simp [this, ih hn.2 h]

omit [DecidableEq κ] in
theorem mem_toListChildren (cs : List (κ × Trie κ ν)) (p : List κ) (v : ν) :
    (p, v) ∈ toListChildren cs ↔ ∃ k t r, (k, t) ∈ cs ∧ p = k :: r ∧ (r, v) ∈ toList t := by
  induction cs with
  | nil => simp [toListChildren]
  | cons c cs ih =>
    obtain ⟨k, t⟩ := c
    simp only [toListChildren, List.mem_append, List.mem_map, ih]
    constructor
    · rintro (⟨⟨r, v'⟩, h, e⟩ | ⟨k', t', r, h, e, h'⟩)
      · simp only [Prod.mk.injEq] at e
        obtain ⟨e1, e2⟩ := e
        subst e2
        exact ⟨k, t, r, by simp, e1.symm, h⟩
      · exact ⟨k', t', r, by simp [h], e, h'⟩
    · rintro ⟨k', t', r, h, e, h'⟩
      rcases List.mem_cons.mp h with h | h
      · injection h with h1 h2; subst h1; subst h2
        exact .inl ⟨(r, v), h', by simp [e]⟩
      · exact .inr ⟨k', t', r, h, e, h'⟩

theorem mem_toList (p : List κ) : ∀ (t : Trie κ ν) (v : ν), WF t →
    ((p, v) ∈ toList t ↔ lookup? p t = some v) := by
  induction p with
  | nil =>
    rintro ⟨v0, cs⟩ v h
    simp only [toList, lookup?, value, List.mem_cons, Prod.mk.injEq, true_and, mem_toListChildren]
    constructor
    · rintro (h | ⟨k, t, r, _, h, _⟩)
      · simp [h]
      · simp at h
    · intro h; left; simpa [eq_comm] using h
  | cons k r ih =>
    rintro ⟨v0, cs⟩ v ⟨h1, h2⟩
    rw [WFs_iff] at h2
    simp only [toList, lookup?, List.mem_cons, Prod.mk.injEq, List.cons_ne_nil, false_and, false_or,
      mem_toListChildren, Option.bind_eq_some_iff]
    constructor
    · rintro ⟨k', t, r', hm, e, h⟩
      simp only [List.cons.injEq] at e
      obtain ⟨e1, e2⟩ := e
      subst e1; subst e2
      exact ⟨t, child?_of_mem h1 hm, (ih t v (h2 _ hm)).mp h⟩
    · rintro ⟨t, hc, h⟩
      have hm := child?_mem hc
      exact ⟨k, t, r, hm, rfl, (ih t v (h2 _ hm)).mpr h⟩

/-- Iteration order: a path never comes after one of its proper extensions and no path repeats. -/
def PreorderOk (l : List (List κ × ν)) : Prop :=
  l.Pairwise fun a b => ¬ b.1 <+: a.1

omit [DecidableEq κ] in
mutual
theorem preorder_toList : ∀ t : Trie κ ν, WF t → PreorderOk (toList t)
  | .node v cs, ⟨h1, h2⟩ => by
    simp only [PreorderOk, toList, List.pairwise_cons]
    refine ⟨?_, preorder_toListChildren cs h1 h2⟩
    rintro ⟨p, v'⟩ hp
    obtain ⟨k, t, r, _, e, _⟩ := (mem_toListChildren _ _ _).mp hp
    subst e
    simp
theorem preorder_toListChildren : ∀ cs : List (κ × Trie κ ν), (cs.map Prod.fst).Nodup → WFs cs →
    PreorderOk (toListChildren cs)
  | [], _, _ => by simp [PreorderOk, toListChildren]
  | (k, t) :: cs, hn, ⟨h1, h2⟩ => by
    simp only [List.map_cons, List.nodup_cons] at hn
    simp only [PreorderOk, toListChildren, List.pairwise_append, List.pairwise_map,
      List.cons_prefix_cons, true_and]
    refine ⟨preorder_toList t h1, preorder_toListChildren cs hn.2 h2, ?_⟩
    rintro a ha ⟨p, v⟩ hb hpre
    obtain ⟨⟨r, v1⟩, _, rfl⟩ := List.mem_map.mp ha
    obtain ⟨k', t', r', hm, e, _⟩ := (mem_toListChildren _ _ _).mp hb
    subst e
    simp only [List.cons_prefix_cons] at hpre
    exact hn.1 (hpre.1 ▸ List.mem_map_of_mem (f := Prod.fst) hm)
end

end FT.Trie
