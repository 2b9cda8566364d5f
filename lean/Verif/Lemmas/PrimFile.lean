import Verif.Spec.PrimFile
/-! Lemmas on loading primitives. -/
namespace FT

/-- The cache entries for the classes seen. -/
def cached (done : List PClass) : List ((String × String) × PClass) := done.reverse.map fun c => (c.key, c)

/-- What the deserializer keeps up: the cache has the classes seen, the generator still gives the others. -/
def DeserOk (all : List PClass) (s : PDeser) : Prop := ∃ done, all = done ++ s.rest ∧ s.cache = cached done

theorem cached_snoc (done : List PClass) (c : PClass) : (c.key, c) :: cached done = cached (done ++ [c]) := by
  simp [cached]

theorem lookup_cached {done : List PClass} {key : String × String} {c : PClass} (h : (cached done).lookup key = some c) : c ∈ done ∧ c.key = key := by
  unfold cached at h
  have : ∀ l : List PClass, (l.map fun c => (c.key, c)).lookup key = some c → c ∈ l ∧ c.key = key := by
    intro l
    induction l with
    | nil => simp
    | cons d l ih =>
      intro h
      simp only [List.map_cons, List.lookup_cons] at h
      by_cases hk : key = d.key
      · simp only [hk, beq_self_eq_true, Option.some.injEq] at h
        subst h
        exact ⟨List.mem_cons_self, hk.symm⟩
      · rw [show (key == d.key) = false by simpa using hk] at h
        exact ⟨List.mem_cons_of_mem _ (ih h).1, (ih h).2⟩
  have := this _ h
  exact ⟨by simpa using this.1, this.2⟩

theorem lookup_cached_none {done : List PClass} {key : String × String} (h : (cached done).lookup key = none) : ∀ c ∈ done, c.key ≠ key := by
  intro c hc e
  rw [List.lookup_eq_none_iff] at h
  have := h (c.key, c) (by simp [cached, hc])
  simp [e] at this

theorem findClass_spec (key : String × String) : ∀ (rest done : List PClass) (o : Option PClass) (s : PDeser),
    findClass key (cached done) rest = (o, s) →
    DeserOk (done ++ rest) s ∧ (∀ c, o = some c → c ∈ rest ∧ c.key = key) ∧ (o = none → ∀ c ∈ rest, c.key ≠ key)
  | [], done, o, s, h => by
    simp only [findClass, Prod.mk.injEq] at h
    obtain ⟨rfl, rfl⟩ := h
    exact ⟨⟨done, rfl, rfl⟩, by simp, by simp⟩
  | c :: cs, done, o, s, h => by
    rw [findClass] at h
    split at h
    · next hk =>
      simp only [Prod.mk.injEq] at h
      obtain ⟨rfl, rfl⟩ := h
      refine ⟨⟨done ++ [c], by simp, cached_snoc done c⟩, ?_, by simp⟩
      intro c' h'
      cases h'
      exact ⟨List.mem_cons_self, hk⟩
    · next hk =>
      rw [cached_snoc] at h
      obtain ⟨h1, h2, h3⟩ := findClass_spec key cs (done ++ [c]) o s h
      refine ⟨by simpa using h1, fun c' h' => ⟨List.mem_cons_of_mem _ (h2 c' h').1, (h2 c' h').2⟩, fun ho c' hc' => ?_⟩
      rcases List.mem_cons.mp hc' with rfl | hc'
      · exact hk
      · exact h3 ho c' hc'

theorem classFor_spec {all : List PClass} {s s' : PDeser} {o : Option PClass} {key : String × String} (hs : DeserOk all s)
    (h : s.classFor key = (o, s')) :
    DeserOk all s' ∧ (∀ c, o = some c → c ∈ all ∧ c.key = key) ∧ (o = none → ∀ c ∈ all, c.key ≠ key) := by
  obtain ⟨done, hall, hc⟩ := hs
  unfold PDeser.classFor at h
  rw [hc] at h
  split at h
  · next c hl =>
    simp only [Prod.mk.injEq] at h
    obtain ⟨rfl, rfl⟩ := h
    refine ⟨⟨done, hall, hc⟩, ?_, by simp⟩
    intro c' h'
    cases h'
    have := lookup_cached hl
    exact ⟨by rw [hall]; exact List.mem_append_left _ this.1, this.2⟩
  · next hl =>
    obtain ⟨h1, h2, h3⟩ := findClass_spec key s.rest done o s' h
    rw [← hall] at h1
    refine ⟨h1, fun c hc' => ⟨by rw [hall]; exact List.mem_append_right _ (h2 c hc').1, (h2 c hc').2⟩, fun ho c hc' => ?_⟩
    rw [hall] at hc'
    rcases List.mem_append.mp hc' with h | h
    · exact lookup_cached_none hl c h
    · exact h3 ho c h

theorem deserialize_state {all : List PClass} {s : PDeser} (hs : DeserOk all s) (d : PDict) : DeserOk all (deserializePrimitive s d).2 := by
  unfold deserializePrimitive
  cases h : s.classFor (d.type, d.module) with
  | mk o s' =>
    have := (classFor_spec hs h).1
    cases o <;> exact this

theorem deserializeAll_state {all : List PClass} : ∀ (ds : List PDict) {s : PDeser}, DeserOk all s → DeserOk all (deserializeAll s ds)
  | [], _, h => h
  | d :: ds, _, h => deserializeAll_state ds (deserialize_state h d)

theorem new_ok (root : ClassTree) : DeserOk root.descendants (PDeser.new root) := ⟨[], rfl, rfl⟩

theorem deserialize_result {all : List PClass} {s : PDeser} (hs : DeserOk all s) (d : PDict) :
    ((∀ c ∈ all, c.key ≠ (d.type, d.module)) ∧ (deserializePrimitive s d).1 = .error .runtimeError) ∨
      ∃ c ∈ all, c.key = (d.type, d.module) ∧ (deserializePrimitive s d).1 = construct c d.arguments := by
  unfold deserializePrimitive
  cases h : s.classFor (d.type, d.module) with
  | mk o s' =>
    obtain ⟨_, h2, h3⟩ := classFor_spec hs h
    cases o with
    | none => exact .inl ⟨h3 rfl, rfl⟩
    | some c => exact .inr ⟨c, (h2 c rfl).1, (h2 c rfl).2, rfl⟩

/-! ## Arguments -/

theorem lookup_filtered {params : List (String × Option Val)} : ∀ {args : List Val}, (params.map Prod.fst).Nodup → params.length = args.length →
    ∀ (i : Nat) (hi : i < params.length) (hj : i < args.length),
      (((params.zip args).filter fun (d, v) => !isDefault d.2 v).map fun (d, v) => (d.1, v)).lookup params[i].1 =
        if isDefault params[i].2 args[i] then none else some args[i] := by
  induction params with
  | nil => intro args _ _ i hi; simp at hi
  | cons p ps ih =>
    intro args hn hl i hi hj
    match args, hl with
    | v :: vs, hl =>
      simp only [List.map_cons, List.nodup_cons] at hn
      simp only [List.zip_cons_cons, List.filter_cons]
      cases i with
      | zero =>
        simp only [List.getElem_cons_zero]
        by_cases hd : isDefault p.2 v = true
        · simp only [hd, Bool.not_true, Bool.false_eq_true, if_false, if_true]
          rw [List.lookup_eq_none_iff]
          intro x hx
          obtain ⟨y, hy, rfl⟩ := List.mem_map.mp hx
          have hy' := (List.of_mem_zip (List.mem_filter.mp hy).1).1
          simp only [bne_iff_ne, ne_eq]
          intro e
          exact hn.1 (by rw [e]; exact List.mem_map.mpr ⟨y.1, hy', rfl⟩)
        · simp only [Bool.not_eq_true] at hd
          simp [hd]
      | succ i =>
        simp only [List.getElem_cons_succ]
        have hne : (ps[i]'(by simpa using hi)).1 ≠ p.1 := fun e => hn.1 (by rw [← e]; exact List.mem_map.mpr ⟨_, List.getElem_mem _, rfl⟩)
        have := ih (args := vs) hn.2 (by simpa using hl) i (by simpa using hi) (by simpa using hj)
        split
        · rw [List.map_cons, List.lookup_cons, show ((ps[i]'(by simpa using hi)).1 == p.1) = false by simpa using hne]
          exact this
        · exact this

theorem bindParams_of {arguments : List (String × Val)} : ∀ {params : List (String × Option Val)} {vs : List Val}, params.length = vs.length →
    (∀ (i : Nat) (hi : i < params.length) (hj : i < vs.length), (arguments.lookup params[i].1).or params[i].2 = some vs[i]) →
    bindParams arguments params = .ok vs
  | [], [], _, _ => rfl
  | p :: ps, v :: vs, hl, h => by
    have h0 := h 0 (by simp) (by simp)
    simp only [List.getElem_cons_zero] at h0
    have h1 := bindParams_of (arguments := arguments) (params := ps) (vs := vs) (by simpa using hl) fun i hi hj => by
      have := h (i + 1) (by simpa using hi) (by simpa using hj)
      simpa using this
    rw [bindParams, h0, h1]

/-! ## The tree of classes -/

mutual
theorem mem_descendants : ∀ (t : ClassTree) (c : PClass), c ∈ t.descendants ↔ Spec.InTree t c
  | .node d subs, c => by
    simp only [ClassTree.descendants, List.mem_cons, mem_descendantsL subs c]
    constructor
    · rintro (rfl | ⟨t, ht, h⟩)
      · exact .root _ _
      · exact .sub ht h
    · intro h
      cases h with
      | root => exact .inl rfl
      | sub h1 h2 => exact .inr ⟨_, h1, h2⟩
theorem mem_descendantsL : ∀ (ts : List ClassTree) (c : PClass), c ∈ ClassTree.descendantsL ts ↔ ∃ t ∈ ts, Spec.InTree t c
  | [], c => by simp [ClassTree.descendantsL]
  | t :: ts, c => by simp [ClassTree.descendantsL, mem_descendants t c, mem_descendantsL ts c]
end

theorem bindParams_inv {arguments : List (String × Val)} : ∀ {params : List (String × Option Val)} {vs : List Val}, bindParams arguments params = .ok vs →
    params.length = vs.length ∧ ∀ (i : Nat) n d, params[i]? = some (n, d) → ∃ v, vs[i]? = some v ∧ (arguments.lookup n).or d = some v
  | [], vs, h => by cases h; simp
  | (n, d) :: ps, vs, h => by
    rw [bindParams] at h
    split at h
    · cases h
    · next v hv =>
      split at h
      · cases h
      · next ws hw =>
        cases h
        obtain ⟨h1, h2⟩ := bindParams_inv hw
        refine ⟨by simp [h1], ?_⟩
        intro i n' d' hi
        match i with
        | 0 =>
          simp only [List.getElem?_cons_zero, Option.some.injEq, Prod.mk.injEq] at hi
          obtain ⟨rfl, rfl⟩ := hi
          exact ⟨v, rfl, hv⟩
        | i + 1 => exact h2 i n' d' (by simpa using hi)

end FT
