import Verif.Spec.DfsInput
import Verif.Lemmas.Query
/-! Lemmas about the arguments of Deep Feature Synthesis. -/
namespace FT
open Spec

theorem readEach_ok {α β : Type} {f : α → Except PyErr β} {l : List α} {bs : List β} :
    readEach f l = .ok bs ↔ EachOf (fun a b => f a = .ok b) l bs := by
  induction l generalizing bs with
  | nil =>
    constructor
    · intro h; cases h; exact .nil
    · intro h; cases h; rfl
  | cons a l ih =>
    constructor
    · intro h
      simp only [readEach] at h
      cases e : f a with
      | error x => rw [e] at h; cases h
      | ok b =>
        rw [e] at h
        cases e2 : readEach f l with
        | error x => rw [e2] at h; cases h
        | ok bs => rw [e2] at h; cases h; exact .cons e (ih.mp e2)
    · intro h
      cases h with
      | cons h1 h2 => simp only [readEach, h1, ih.mpr h2]

theorem eachOf_iff {α β : Type} {R S : α → β → Prop} (h : ∀ a b, R a b ↔ S a b) {l : List α} {bs : List β} :
    EachOf R l bs ↔ EachOf S l bs := by
  constructor
  · intro x
    induction x with
    | nil => exact .nil
    | cons h1 _ ih => exact .cons ((h _ _).mp h1) ih
  · intro x
    induction x with
    | nil => exact .nil
    | cons h1 _ ih => exact .cons ((h _ _).mpr h1) ih

theorem Spec.EachOf.mem_right {α β : Type} {R : α → β → Prop} {l : List α} {bs : List β} (h : EachOf R l bs) :
    ∀ b ∈ bs, ∃ a ∈ l, R a b := by
  induction h with
  | nil => intro b hb; cases hb
  | cons h1 _ ih =>
    intro b hb
    rcases List.mem_cons.mp hb with rfl | hb
    · exact ⟨_, List.mem_cons_self, h1⟩
    · obtain ⟨a, ha, h⟩ := ih b hb
      exact ⟨a, List.mem_cons_of_mem _ ha, h⟩

theorem byLowerName_lookup (lower : String → String) (cs : List LibClass) (n : String) :
    (∀ c, (byLowerName lower cs).lookup n = some c → c ∈ cs ∧ lower c.name = n) ∧
    ((byLowerName lower cs).lookup n = none → ∀ c ∈ cs, lower c.name ≠ n) := by
  induction cs with
  | nil => simp [byLowerName]
  | cons a cs ih =>
    have hf : ∀ (l : List (String × LibClass)) (k : String), n ≠ k → (l.filter fun p => p.1 != k).lookup n = l.lookup n := by
      intro l k hk
      induction l with
      | nil => rfl
      | cons p l ih =>
        obtain ⟨m, d⟩ := p
        by_cases hm : m = k
        · subst hm
          simp only [List.filter_cons, bne_self_eq_false, Bool.false_eq_true, if_false, List.lookup_cons, beq_false_of_ne hk, ih]
        · simp only [List.filter_cons, bne_iff_ne, ne_eq, hm, not_false_eq_true, if_true, List.lookup_cons, ih]
    simp only [byLowerName]
    cases e : (byLowerName lower cs).lookup (lower a.name) with
    | some d =>
      simp only [List.lookup_cons]
      by_cases hn : n = lower a.name
      · subst hn
        simp only [beq_self_eq_true, Option.some.injEq]
        obtain ⟨h1, h2⟩ := ih.1 d e
        exact ⟨by rintro c rfl; exact ⟨List.mem_cons_of_mem _ h1, h2⟩, by simp⟩
      · simp only [beq_false_of_ne hn, hf _ _ hn]
        refine ⟨fun c hc => ?_, fun h c hc => ?_⟩
        · obtain ⟨h1, h2⟩ := ih.1 c hc
          exact ⟨List.mem_cons_of_mem _ h1, h2⟩
        · rcases List.mem_cons.mp hc with rfl | hc
          · exact fun h => hn h.symm
          · exact ih.2 h c hc
    | none =>
      simp only [List.lookup_cons]
      by_cases hn : n = lower a.name
      · subst hn
        simp only [beq_self_eq_true, Option.some.injEq]
        exact ⟨by rintro c rfl; exact ⟨List.mem_cons_self, rfl⟩, by simp⟩
      · simp only [beq_false_of_ne hn]
        refine ⟨fun c hc => ?_, fun h c hc => ?_⟩
        · obtain ⟨h1, h2⟩ := ih.1 c hc
          exact ⟨List.mem_cons_of_mem _ h1, h2⟩
        · rcases List.mem_cons.mp hc with rfl | hc
          · exact fun h => hn h.symm
          · exact ih.2 h c hc

theorem offered {lib : Library} (ho : ∀ l, (lib.setOrder l).Perm l) (agg : Bool) (n : String) :
    (∀ c, (if agg then getAggregationPrimitives lib else getTransformPrimitives lib).lookup n = some c → Offers lib agg n c) ∧
    ((if agg then getAggregationPrimitives lib else getTransformPrimitives lib).lookup n = none → ∀ c, ¬Offers lib agg n c) := by
  have hm : ∀ (q : LibClass → Bool) c, c ∈ lib.setOrder (dedup ((lib.attrs.map Prod.snd).filter fun c => q c && c.name != "")) ↔
      (∃ a, (a, c) ∈ lib.attrs) ∧ q c = true ∧ c.name ≠ "" := by
    intro q c
    rw [(ho _).mem_iff, mem_dedup, List.mem_filter]
    simp only [List.mem_map, Prod.exists, exists_eq_right, Bool.and_eq_true, bne_iff_ne, ne_eq]
  cases agg with
  | true =>
    have := byLowerName_lookup lib.lower (lib.setOrder (dedup ((lib.attrs.map Prod.snd).filter fun c => c.aggregation && c.name != ""))) n
    refine ⟨fun c hc => ?_, fun h c hc => ?_⟩
    · obtain ⟨h1, h2⟩ := this.1 c hc
      obtain ⟨h3, h4, h5⟩ := (hm _ c).mp h1
      exact ⟨h3, h4, h5, h2⟩
    · exact this.2 h c ((hm _ c).mpr ⟨hc.1, hc.2.1, hc.2.2.1⟩) hc.2.2.2
  | false =>
    have := byLowerName_lookup lib.lower (lib.setOrder (dedup ((lib.attrs.map Prod.snd).filter fun c => c.transform && c.name != ""))) n
    refine ⟨fun c hc => ?_, fun h c hc => ?_⟩
    · obtain ⟨h1, h2⟩ := this.1 c hc
      obtain ⟨h3, h4, h5⟩ := (hm _ c).mp h1
      exact ⟨h3, h4, h5, h2⟩
    · exact this.2 h c ((hm _ c).mpr ⟨hc.1, hc.2.1, hc.2.2.1⟩) hc.2.2.2

theorem lookup_offered {lib : Library} (ho : ∀ l, (lib.setOrder l).Perm l) (agg : Bool) (hn : LowerNamesApart lib agg) {n : String} {c : LibClass} :
    (if agg then getAggregationPrimitives lib else getTransformPrimitives lib).lookup n = some c ↔ Offers lib agg n c := by
  refine ⟨(offered ho agg n).1 c, fun h => ?_⟩
  cases e : (if agg then getAggregationPrimitives lib else getTransformPrimitives lib).lookup n with
  | none => exact absurd h ((offered ho agg n).2 e c)
  | some d => rw [hn n d c ((offered ho agg n).1 d e) h]

/-- Looking up and making. -/
theorem resolve_ok {lib : Library} (ho : ∀ l, (lib.setOrder l).Perm l) (agg : Bool) (hn : LowerNamesApart lib agg) {r : RawPrim} {p : Prim} :
    (∃ r', lookupText lib (if agg then getAggregationPrimitives lib else getTransformPrimitives lib) r = .ok r' ∧
      handlePrimitive r' = .ok p) ↔ PrimGiven lib agg r p := by
  cases r with
  | text s =>
    simp only [lookupText]
    constructor
    · rintro ⟨r', h1, h2⟩
      cases e : (if agg then getAggregationPrimitives lib else getTransformPrimitives lib).lookup (lib.lower s) with
      | none => rw [e] at h1; cases h1
      | some c => rw [e] at h1; cases h1; exact .text ((lookup_offered ho agg hn).mp e) h2
    · intro h
      cases h with
      | text h1 h2 => rw [(lookup_offered ho agg hn).mpr h1]; exact ⟨_, rfl, h2⟩
  | cls c =>
    constructor
    · rintro ⟨r', h1, h2⟩; cases h1; exact .cls h2
    · intro h; cases h with | cls h => exact ⟨_, rfl, h⟩
  | inst q =>
    constructor
    · rintro ⟨r', h1, h2⟩; cases h1; cases h2; exact .inst
    · intro h; cases h; exact ⟨_, rfl, rfl⟩
  | other e =>
    constructor
    · rintro ⟨r', h1, h2⟩; cases h1; cases h2
    · intro h; cases h

theorem readAgg_ok {lib : Library} (ho : ∀ l, (lib.setOrder l).Perm l) (hn : LowerNamesApart lib true) {r : RawPrim} {p : Prim} :
    readAgg lib r = .ok p ↔ PrimGiven lib true r p ∧ p.transform = false := by
  rw [← resolve_ok ho true hn]
  simp only [readAgg, if_true]
  constructor
  · intro h
    cases e : lookupText lib (getAggregationPrimitives lib) r with
    | error x => rw [e] at h; cases h
    | ok r' =>
      rw [e] at h
      dsimp only at h
      cases e2 : handlePrimitive r' with
      | error x => rw [e2] at h; cases h
      | ok q =>
        rw [e2] at h
        dsimp only at h
        split at h
        · cases h
        · next ht => cases h; exact ⟨⟨r', rfl, e2⟩, by simpa using ht⟩
  · rintro ⟨⟨r', h1, h2⟩, h3⟩
    simp only [h1, h2, h3, Bool.false_eq_true, if_false]

theorem readTrans_ok {lib : Library} (ho : ∀ l, (lib.setOrder l).Perm l) (hn : LowerNamesApart lib false) {r : RawPrim} {p : Prim} :
    readTrans lib r = .ok p ↔ PrimGiven lib false r p ∧ p.transform = true := by
  rw [← resolve_ok ho false hn]
  simp only [readTrans, Bool.false_eq_true, if_false]
  constructor
  · intro h
    cases e : lookupText lib (getTransformPrimitives lib) r with
    | error x => rw [e] at h; cases h
    | ok r' =>
      rw [e] at h
      dsimp only at h
      cases e2 : handlePrimitive r' with
      | error x => rw [e2] at h; cases h
      | ok q =>
        rw [e2] at h
        dsimp only at h
        split at h
        · next ht => cases h; exact ⟨⟨r', rfl, e2⟩, ht⟩
        · cases h
  · rintro ⟨⟨r', h1, h2⟩, h3⟩
    simp only [h1, h2, h3, if_true]

theorem readWhere_ok {lib : Library} (ho : ∀ l, (lib.setOrder l).Perm l) (hn : LowerNamesApart lib true) {r : RawPrim} {p : Prim} :
    readWhere lib r = .ok p ↔ PrimGiven lib true r p := by
  rw [← resolve_ok ho true hn]
  simp only [readWhere, if_true]
  cases e : lookupText lib (getAggregationPrimitives lib) r with
  | error x => simp
  | ok r' => simp

theorem allLists_iff {m : List (String × Option (List String))} {r : VarDict} :
    allLists m = some r ↔ (∀ p ∈ m, p.2 ≠ none) ∧ r = m.map fun p => (p.1, p.2.getD []) := by
  induction m generalizing r with
  | nil => simp [allLists, eq_comm]
  | cons p m ih =>
    obtain ⟨k, v⟩ := p
    cases v with
    | none => simp [allLists]
    | some l =>
      simp only [allLists, Option.map_eq_some_iff, ih]
      constructor
      · rintro ⟨a, ⟨h1, rfl⟩, rfl⟩
        refine ⟨?_, rfl⟩
        intro p hp
        rcases List.mem_cons.mp hp with rfl | hp
        · simp
        · exact h1 p hp
      · rintro ⟨h1, rfl⟩
        exact ⟨_, ⟨fun p hp => h1 p (List.mem_cons_of_mem _ hp), rfl⟩, rfl⟩

theorem entityList_iff {v : OptVal} {l : List String} : entityList v = some l ↔ v = .list l := by
  cases v <;> simp [entityList]

theorem variableDict_iff {v : OptVal} {r : VarDict} :
    variableDict v = some r ↔ ∃ m, v = .dict m ∧ (∀ p ∈ m, p.2 ≠ none) ∧ r = m.map fun p => (p.1, p.2.getD []) := by
  cases v with
  | list l => simp [variableDict]
  | other => simp [variableDict]
  | dict m => simp only [variableDict, allLists_iff, OptVal.dict.injEq, exists_eq_left']

/-- The options read so far, with those of a dict on top. -/
def overlay (o : POption) (d : List (String × OptVal)) : POption :=
  { ignoreEntities := (listFor d "ignore_entities").getD o.ignoreEntities
    ignoreVars := (dictFor d "ignore_variables").getD o.ignoreVars
    includeEntities := (listFor d "include_entities").or o.includeEntities
    includeVars := (dictFor d "include_variables").or o.includeVars
    ignoreGbEntities := (listFor d "ignore_groupby_entities").or o.ignoreGbEntities
    ignoreGbVars := (dictFor d "ignore_groupby_variables").or o.ignoreGbVars
    includeGbEntities := (listFor d "include_groupby_entities").or o.includeGbEntities
    includeGbVars := (dictFor d "include_groupby_variables").or o.includeGbVars }

theorem overlay_empty (d : List (String × OptVal)) : overlay {} d = meant d := by
  simp [overlay, meant]

theorem listFor_cons {k k' : String} {v : OptVal} {d : List (String × OptVal)} :
    listFor ((k, v) :: d) k' = if k' = k then (match v with | .list l => some l | _ => none) else listFor d k' := by
  unfold listFor
  rw [List.lookup_cons]
  by_cases h : k' = k
  · subst h; simp only [beq_self_eq_true, if_true]; cases v <;> rfl
  · simp only [beq_false_of_ne h, if_neg h]

theorem dictFor_cons {k k' : String} {v : OptVal} {d : List (String × OptVal)} :
    dictFor ((k, v) :: d) k' =
      if k' = k then (match v with | .dict m => some (m.map fun p => (p.1, p.2.getD [])) | _ => none) else dictFor d k' := by
  unfold dictFor
  rw [List.lookup_cons]
  by_cases h : k' = k
  · subst h; simp only [beq_self_eq_true, if_true]; cases v <;> rfl
  · simp only [beq_false_of_ne h, if_neg h]

theorem listFor_none {k : String} {d : List (String × OptVal)} (h : d.lookup k = none) : listFor d k = none := by
  simp [listFor, h]

theorem dictFor_none {k : String} {d : List (String × OptVal)} (h : d.lookup k = none) : dictFor d k = none := by
  simp [dictFor, h]

/-- One option. -/
theorem setOption_ok {o o' : POption} {k : String} {v : OptVal} {d : List (String × OptVal)} (hk : d.lookup k = none) :
    setOption o k v = some (some o') →
      (k ∈ entityOptions ∧ (∃ l, v = .list l) ∨ k ∈ variableOptions ∧ ∃ m, v = .dict m ∧ ∀ p ∈ m, p.2 ≠ none) ∧
      overlay o' d = overlay o ((k, v) :: d) := by
  intro h
  unfold setOption at h
  have hl := listFor_none hk
  have hd := dictFor_none hk
  have ent : ∀ l, entityList v = some l → k ∈ entityOptions →
      (k ∈ entityOptions ∧ (∃ l, v = .list l) ∨ k ∈ variableOptions ∧ ∃ m, v = .dict m ∧ ∀ p ∈ m, p.2 ≠ none) :=
    fun l hl hk => Or.inl ⟨hk, l, entityList_iff.mp hl⟩
  have var : ∀ r, variableDict v = some r → k ∈ variableOptions →
      (k ∈ entityOptions ∧ (∃ l, v = .list l) ∨ k ∈ variableOptions ∧ ∃ m, v = .dict m ∧ ∀ p ∈ m, p.2 ≠ none) := by
    intro r hr hk
    obtain ⟨m, h1, h2, _⟩ := variableDict_iff.mp hr
    exact Or.inr ⟨hk, m, h1, h2⟩
  repeat' (split at h)
  all_goals first
    | (next hkey =>
        subst hkey
        simp only [Option.some.injEq, Option.map_eq_some_iff] at h
        obtain ⟨l, h1, rfl⟩ := h
        refine ⟨ent l h1 (by decide), ?_⟩
        rw [entityList_iff.mp h1]
        simp [overlay, listFor_cons, dictFor_cons, hl])
    | (next hkey =>
        subst hkey
        simp only [Option.some.injEq, Option.map_eq_some_iff] at h
        obtain ⟨r, h1, rfl⟩ := h
        refine ⟨var r h1 (by decide), ?_⟩
        obtain ⟨m, rfl, _, rfl⟩ := variableDict_iff.mp h1
        simp [overlay, listFor_cons, dictFor_cons, hd])
    | cases h

theorem setOption_some (o : POption) {k : String} {v : OptVal}
    (h : k ∈ entityOptions ∧ (∃ l, v = .list l) ∨ k ∈ variableOptions ∧ ∃ m, v = .dict m ∧ ∀ p ∈ m, p.2 ≠ none) :
    ∃ o', setOption o k v = some (some o') := by
  rcases h with ⟨hk, l, rfl⟩ | ⟨hk, m, rfl, hm⟩
  · simp only [entityOptions, List.mem_cons, List.not_mem_nil, or_false] at hk
    rcases hk with rfl | rfl | rfl | rfl <;> exact ⟨_, by simp [setOption, entityList]; rfl⟩
  · have hv : variableDict (.dict m) = some (m.map fun p => (p.1, p.2.getD [])) := variableDict_iff.mpr ⟨m, rfl, hm, rfl⟩
    simp only [variableOptions, List.mem_cons, List.not_mem_nil, or_false] at hk
    rcases hk with rfl | rfl | rfl | rfl <;> exact ⟨_, by simp [setOption, hv]; rfl⟩

theorem readOptionFrom_ok {named : Bool} {o o' : POption} {d : List (String × OptVal)} (hd : (d.map Prod.fst).Nodup) :
    readOptionFrom named o d = .ok o' ↔ OptionsProper d ∧ o' = overlay o d := by
  induction d generalizing o with
  | nil =>
    simp only [readOptionFrom, OptionsProper]
    constructor
    · intro h; cases h; exact ⟨by simp, by simp [overlay, listFor, dictFor]⟩
    · rintro ⟨_, rfl⟩; simp [overlay, listFor, dictFor]
  | cons p d ih =>
    obtain ⟨k, v⟩ := p
    simp only [List.map_cons, List.nodup_cons] at hd
    have hk : d.lookup k = none := by
      cases e : d.lookup k with
      | none => rfl
      | some x =>
        exfalso
        apply hd.1
        have : ∀ (l : List (String × OptVal)), l.lookup k = some x → k ∈ l.map Prod.fst := by
          intro l
          induction l with
          | nil => intro h; cases h
          | cons q l ih =>
            intro h
            obtain ⟨a, b⟩ := q
            rw [List.lookup_cons] at h
            by_cases hka : k = a
            · simp [hka]
            · rw [beq_false_of_ne hka] at h
              exact List.mem_cons_of_mem _ (ih h)
        exact this d e
    simp only [readOptionFrom]
    constructor
    · intro h
      cases e : setOption o k v with
      | none => rw [e] at h; cases h
      | some x =>
        rw [e] at h
        cases x with
        | none => cases h
        | some o₁ =>
          dsimp only at h
          obtain ⟨h1, h2⟩ := setOption_ok hk e
          obtain ⟨h3, h4⟩ := (ih hd.2).mp h
          refine ⟨?_, by rw [h4, h2]⟩
          intro k' v' hm
          rcases List.mem_cons.mp hm with h | h
          · cases h; exact h1
          · exact h3 k' v' h
    · rintro ⟨h1, h2⟩
      obtain ⟨o₁, e⟩ := setOption_some o (h1 k v List.mem_cons_self)
      rw [e]
      dsimp only
      rw [ih hd.2]
      exact ⟨fun k' v' hm => h1 k' v' (List.mem_cons_of_mem _ hm), by rw [h2, (setOption_ok hk e).2]⟩

theorem readOption_ok {named : Bool} {r : RawOption} {o : POption} (hd : ∀ d, r = .dict d → (d.map Prod.fst).Nodup) :
    readOption named r = .ok o ↔ OptionMeans r o := by
  cases r with
  | other => simp [readOption, OptionMeans]
  | dict d => simp only [readOption, readOptionFrom_ok (hd d rfl), overlay_empty, OptionMeans, RawOption.dict.injEq, exists_eq_left']

theorem keyArity_ok {lib : Library} (ho : ∀ l, (lib.setOrder l).Perm l) (h1 : LowerNamesApart lib true) (h2 : LowerNamesApart lib false)
    {k : RawKey} {n : Nat} : keyArity lib k = .ok n ↔ TakesInputs lib k n := by
  have a1 := fun n c => lookup_offered ho true h1 (n := n) (c := c)
  have a2 := fun n c => lookup_offered ho false h2 (n := n) (c := c)
  simp only [if_true] at a1
  simp only [Bool.false_eq_true, if_false] at a2
  cases k with
  | cls c =>
    constructor
    · intro h; cases h; exact .cls
    · intro h; cases h; rfl
  | inst p =>
    constructor
    · intro h; cases h; exact .inst
    · intro h; cases h; rfl
  | text s =>
    simp only [keyArity]
    constructor
    · intro h
      cases e : (getAggregationPrimitives lib).lookup s with
      | some c => rw [e] at h; cases h; exact .agg ((a1 s c).mp e)
      | none =>
        rw [e] at h
        dsimp only at h
        cases e2 : (getTransformPrimitives lib).lookup s with
        | some c =>
          rw [e2] at h; cases h
          exact .trans (fun d hd => by rw [(a1 s d).mpr hd] at e; cases e) ((a2 s c).mp e2)
        | none => rw [e2] at h; cases h
    · intro h
      cases h with
      | agg h => rw [(a1 s _).mpr h]
      | trans hno h =>
        have : (getAggregationPrimitives lib).lookup s = none := by
          cases e : (getAggregationPrimitives lib).lookup s with
          | none => rfl
          | some d => exact absurd ((a1 s d).mp e) (hno d)
        rw [this, (a2 s _).mpr h]

theorem checkArities_ok {lib : Library} (ho : ∀ l, (lib.setOrder l).Perm l) (h1 : LowerNamesApart lib true)
    (h2 : LowerNamesApart lib false) {n : Nat} {ks : List RawKey} :
    checkArities lib n ks = .ok () ↔ ∀ k ∈ ks, TakesInputs lib k n := by
  induction ks with
  | nil => simp [checkArities]
  | cons k ks ih =>
    simp only [checkArities]
    constructor
    · intro h
      cases e : keyArity lib k with
      | error x => rw [e] at h; cases h
      | ok m =>
        rw [e] at h
        dsimp only at h
        by_cases hm : m = n
        · rw [if_pos hm] at h
          subst hm
          intro k' hk'
          rcases List.mem_cons.mp hk' with rfl | hk'
          · exact (keyArity_ok ho h1 h2).mp e
          · exact ih.mp h k' hk'
        · rw [if_neg hm] at h; cases h
    · intro h
      rw [(keyArity_ok ho h1 h2).mpr (h k List.mem_cons_self)]
      dsimp only
      rw [if_pos rfl]
      exact ih.mpr fun k' hk' => h k' (List.mem_cons_of_mem _ hk')

theorem eachMeans {l : List RawOption} {os : List POption} :
    EachOf OptionMeans l os ↔ (∀ r ∈ l, ∃ d, r = .dict d ∧ OptionsProper d) ∧
      os = l.map fun r => match r with | .dict d => meant d | .other => {} := by
  induction l generalizing os with
  | nil =>
    constructor
    · intro h; cases h; exact ⟨by simp, rfl⟩
    · rintro ⟨_, rfl⟩; exact .nil
  | cons r l ih =>
    constructor
    · intro h
      cases h with
      | cons h1 h2 =>
        obtain ⟨d, rfl, hp, rfl⟩ := h1
        obtain ⟨h3, rfl⟩ := ih.mp h2
        refine ⟨?_, rfl⟩
        intro r hr
        rcases List.mem_cons.mp hr with rfl | hr
        · exact ⟨d, rfl, hp⟩
        · exact h3 r hr
    · rintro ⟨h1, rfl⟩
      obtain ⟨d, rfl, hp⟩ := h1 r List.mem_cons_self
      exact .cons ⟨d, rfl, hp, rfl⟩ (ih.mpr ⟨fun r hr => h1 r (List.mem_cons_of_mem _ hr), rfl⟩)

theorem readEachOption_ok {named : Bool} {l : List RawOption} (hd : ∀ d, RawOption.dict d ∈ l → (d.map Prod.fst).Nodup) {os : List POption} :
    readEach (readOption named) l = .ok os ↔ (∀ r ∈ l, ∃ d, r = .dict d ∧ OptionsProper d) ∧
      os = l.map fun r => match r with | .dict d => meant d | .other => {} := by
  rw [readEach_ok, ← eachMeans]
  constructor
  · intro h
    induction h with
    | nil => exact .nil
    | @cons a b as bs h1 _ ih =>
      exact .cons ((readOption_ok fun d e => hd d (by simp [e])).mp h1) (ih fun d h => hd d (List.mem_cons_of_mem _ h))
  · intro h
    induction h with
    | nil => exact .nil
    | @cons a b as bs h1 _ ih =>
      exact .cons ((readOption_ok fun d e => hd d (by simp [e])).mpr h1) (ih fun d h => hd d (List.mem_cons_of_mem _ h))

theorem readOptions_ok {lib : Library} (ho : ∀ l, (lib.setOrder l).Perm l) (h1 : LowerNamesApart lib true)
    (h2 : LowerNamesApart lib false) {e : List RawKey × RawOptions}
    (hd : ∀ d, RawOption.dict d ∈ optionsGiven e.2 → (d.map Prod.fst).Nodup) {os : List POption} :
    readOptions lib e.1 e.2 = .ok os ↔ EntryOk lib e ∧
      os = (optionsGiven e.2).map fun r => match r with | .dict d => meant d | .other => {} := by
  obtain ⟨keys, opts⟩ := e
  cases opts with
  | one o =>
    simp only [readOptions]
    rw [readEachOption_ok (l := [o]) hd]
    constructor
    · rintro ⟨h3, h4⟩; exact ⟨⟨h3, by rintro l ⟨⟩⟩, h4⟩
    · rintro ⟨h3, h4⟩; exact ⟨h3.proper, h4⟩
  | many l =>
    simp only [readOptions]
    constructor
    · intro h
      cases e : checkArities lib l.length keys with
      | error x => rw [e] at h; cases h
      | ok u =>
        rw [e] at h
        dsimp only at h
        obtain ⟨h3, h4⟩ := (readEachOption_ok hd).mp h
        exact ⟨⟨h3, by rintro l' ⟨⟩; exact (checkArities_ok ho h1 h2).mp e⟩, h4⟩
    · rintro ⟨h3, h4⟩
      rw [(checkArities_ok ho h1 h2).mpr (h3.inputs l rfl)]
      exact (readEachOption_ok hd).mpr ⟨h3.proper, h4⟩

theorem key_eq (k : RawKey) : k.key = keyFor k := by cases k <;> rfl

theorem storeKeys_ok {options : List POption} {acc : List (PKey × List POption)} {ks : List RawKey} (hacc : (acc.map Prod.fst).Nodup)
    {out : List (PKey × List POption)} :
    storeKeys options acc ks = .ok out ↔ (out.map Prod.fst).Nodup ∧ out = acc ++ ks.map fun k => (keyFor k, options) := by
  induction ks generalizing acc with
  | nil =>
    simp only [storeKeys, List.map_nil, List.append_nil]
    constructor
    · intro h; cases h; exact ⟨hacc, rfl⟩
    · rintro ⟨_, rfl⟩; rfl
  | cons k ks ih =>
    simp only [storeKeys]
    by_cases hk : (acc.any fun p => p.1 == k.key) = true
    · rw [if_pos hk]
      constructor
      · intro h; cases h
      · rintro ⟨h, rfl⟩
        exfalso
        obtain ⟨p, hp, hpk⟩ := List.any_eq_true.mp hk
        simp only [List.map_append, List.map_cons] at h
        rw [List.nodup_append] at h
        refine h.2.2 p.1 (List.mem_map.mpr ⟨p, hp, rfl⟩) (keyFor k) (by simp) ?_
        rw [← key_eq]; simpa using hpk
    · rw [if_neg hk]
      have hnew : ((acc ++ [(k.key, options)]).map Prod.fst).Nodup := by
        rw [List.map_append, List.nodup_append]
        refine ⟨hacc, by simp, ?_⟩
        intro a ha b hb hab
        obtain ⟨p, hp, rfl⟩ := List.mem_map.mp ha
        simp only [List.map_cons, List.map_nil, List.mem_singleton] at hb
        subst hb
        apply hk
        exact List.any_eq_true.mpr ⟨p, hp, by simp [hab]⟩
      rw [ih hnew, key_eq, List.append_assoc]
      rfl

theorem readPrimitiveOptions_ok {lib : Library} (ho : ∀ l, (lib.setOrder l).Perm l) (h1 : LowerNamesApart lib true)
    (h2 : LowerNamesApart lib false) {raw : List (List RawKey × RawOptions)} (hd : DictKeys raw) {acc out : List (PKey × List POption)}
    (hacc : (acc.map Prod.fst).Nodup) :
    readPrimitiveOptions lib acc raw = .ok out ↔
      (∀ e ∈ raw, EntryOk lib e) ∧ (out.map Prod.fst).Nodup ∧ out = acc ++ raw.flatMap entrySays := by
  induction raw generalizing acc with
  | nil =>
    simp only [readPrimitiveOptions, List.flatMap_nil, List.append_nil]
    constructor
    · intro h; cases h; exact ⟨by simp, hacc, rfl⟩
    · rintro ⟨_, _, rfl⟩; rfl
  | cons e raw ih =>
    have hd1 : ∀ d, RawOption.dict d ∈ optionsGiven e.2 → (d.map Prod.fst).Nodup := hd e List.mem_cons_self
    have hd2 : DictKeys raw := fun e' he' => hd e' (List.mem_cons_of_mem _ he')
    obtain ⟨keys, opts⟩ := e
    simp only [readPrimitiveOptions, List.flatMap_cons]
    constructor
    · intro h
      cases e1 : readOptions lib keys opts with
      | error x => rw [e1] at h; cases h
      | ok os =>
        rw [e1] at h
        dsimp only at h
        obtain ⟨h3, rfl⟩ := (readOptions_ok ho h1 h2 (e := (keys, opts)) hd1).mp e1
        cases e2 : storeKeys _ acc keys with
        | error x => rw [e2] at h; cases h
        | ok acc' =>
          rw [e2] at h
          dsimp only at h
          obtain ⟨h4, rfl⟩ := (storeKeys_ok hacc).mp e2
          obtain ⟨h5, h6, h7⟩ := (ih hd2 h4).mp h
          refine ⟨?_, h6, ?_⟩
          · intro e he
            rcases List.mem_cons.mp he with rfl | he
            · exact h3
            · exact h5 e he
          · rw [h7, List.append_assoc]; rfl
    · rintro ⟨h3, h4, h5⟩
      rw [(readOptions_ok ho h1 h2 (e := (keys, opts)) hd1).mpr ⟨h3 _ List.mem_cons_self, rfl⟩]
      dsimp only
      have hn : ((acc ++ entrySays (keys, opts)).map Prod.fst).Nodup := by
        rw [h5, ← List.append_assoc, List.map_append] at h4
        exact (List.nodup_append.mp h4).1
      have hs := (storeKeys_ok (ks := keys) (options := (optionsGiven opts).map fun r => match r with | .dict d => meant d | .other => {})
        hacc (out := acc ++ entrySays (keys, opts))).mpr ⟨hn, rfl⟩
      rw [hs]
      dsimp only
      rw [ih hd2 hn]
      exact ⟨fun e he => h3 e (List.mem_cons_of_mem _ he), h4, by rw [h5, List.append_assoc]⟩

theorem readIgnore_ok {target : String} {r : RawIgnore} {l : List String} : readIgnore target r = .ok l ↔ IgnoreGiven target r l := by
  cases r with
  | none =>
    constructor
    · intro h; cases h; exact .none
    · intro h; cases h; rfl
  | other =>
    constructor
    · intro h; cases h
    · intro h; cases h
  | list l' =>
    simp only [readIgnore]
    by_cases hm : l'.contains target = true
    · rw [if_pos hm]
      constructor
      · intro h; cases h
      · intro h
        cases h with
        | list h => exact absurd (List.contains_iff_mem.mp hm) h
    · rw [if_neg hm]
      constructor
      · intro h; cases h; exact .list fun h => hm (List.contains_iff_mem.mpr h)
      · intro h; cases h; rfl

theorem readIgnoreVars_ok {r : Option RawIgnoreVars} {d : VarDict} : readIgnoreVars r = .ok d ↔ IgnoreVarsGiven r d := by
  cases r with
  | none =>
    constructor
    · intro h; cases h; exact .none
    · intro h; cases h; rfl
  | some raw =>
    simp only [readIgnoreVars]
    constructor
    · intro h
      split at h
      · cases h
      · next h1 =>
        split at h
        · cases h
        · next h2 =>
          cases h
          simp only [Bool.or_eq_true, Bool.not_eq_true', not_or, Bool.not_eq_false, List.all_eq_true] at h1 h2
          have : raw = (raw.map ignoreEntry).map fun p => (some p.1, some (p.2.map some)) := by
            rw [List.map_map]
            conv => lhs; rw [← List.map_id raw]
            apply List.map_congr_left
            rintro ⟨k, v⟩ hm
            have a1 := h1.1 _ hm
            have a2 := h1.2 _ hm
            have a3 := h2 _ hm
            cases k with
            | none => cases a1
            | some k =>
              cases v with
              | none => cases a2
              | some v =>
                simp only [Function.comp, ignoreEntry, Option.getD_some, id, List.map_map, Prod.mk.injEq, Option.some.injEq, true_and]
                conv => lhs; rw [← List.map_id v]
                apply List.map_congr_left
                intro x hx
                have := a3 x hx
                cases x with
                | none => cases this
                | some x => rfl
          generalize raw.map ignoreEntry = d at this
          rw [this]
          exact .some d
    · intro h
      cases h with
      | some d =>
        have h1 : ((d.map fun p => (some p.1, some (p.2.map some)) : RawIgnoreVars).all fun kv => kv.1.isSome) = true := by
          simp
        have h2 : ((d.map fun p => (some p.1, some (p.2.map some)) : RawIgnoreVars).all fun kv => kv.2.isSome) = true := by
          simp
        have h3 : ((d.map fun p => (some p.1, some (p.2.map some)) : RawIgnoreVars).all fun kv => (kv.2.getD []).all Option.isSome) = true := by
          simp
        rw [h1, h2, h3]
        simp only [Bool.not_true, Bool.or_self, Bool.false_eq_true, if_false, Except.ok.injEq, List.map_map]
        conv => rhs; rw [← List.map_id d]
        apply List.map_congr_left
        rintro ⟨k, v⟩ _
        simp only [Function.comp, ignoreEntry, Option.getD_some, List.map_map, id, Prod.mk.injEq, true_and]
        conv => rhs; rw [← List.map_id v]
        apply List.map_congr_left
        intro x _
        rfl

end FT
