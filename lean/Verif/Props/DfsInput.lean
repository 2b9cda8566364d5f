import Verif.Lemmas.DfsInput
import Verif.Props.DfsWitness
/-!
# The arguments of Deep Feature Synthesis as the user writes them (C75)
-/
namespace FT
open FT.Spec

section
variable {lib : Library} {ents : List DEnt} {raw : RawArgs}

/-! ## What is accepted, and what it means -/

/-- C75. The arguments are accepted exactly if the target is an entity, what is ignored has the right form and is not the target, every
primitive given (or used by default) stands for one of the right kind, every entry of the options is proper and no primitive has two
entries; and they are understood as they are written: a text is the class of that name whatever its case, options are stored for the
name or the instance. -/
theorem C75_read (ho : ∀ l, (lib.setOrder l).Perm l) (ha : LowerNamesApart lib true) (ht : LowerNamesApart lib false)
    (hd : DictKeys (raw.options.getD [])) {a : DfsArgs} :
    readArgs lib ents raw = .ok a ↔
      (∃ d ∈ ents, d.id = raw.target) ∧
      IgnoreGiven raw.target raw.ignoreEntities a.ignoreEntities ∧
      IgnoreVarsGiven raw.ignoreVariables a.ignoreVariables ∧
      EachOf (fun r p => PrimGiven lib true r p ∧ p.transform = false) (raw.aggs.getD (lib.defaultAggs.map .cls)) a.aggs ∧
      EachOf (fun r p => PrimGiven lib false r p ∧ p.transform = true) (raw.trans.getD (lib.defaultTrans.map .cls)) a.trans ∧
      EachOf (PrimGiven lib true) (raw.wheres.getD [.cls lib.count]) a.wheres ∧
      EachOf (fun r p => PrimGiven lib false r p ∧ p.transform = true) (raw.groupbys.getD []) a.groupbys ∧
      (∀ e ∈ raw.options.getD [], EntryOk lib e) ∧ (a.options.map Prod.fst).Nodup ∧
      a.options = (raw.options.getD []).flatMap entrySays ∧
      a.target = raw.target ∧ a.maxDepth = raw.maxDepth ∧ a.allowedPaths = raw.allowedPaths ∧ a.seeds = raw.seeds ∧
      a.whereLimit = raw.whereLimit ∧ a.sel = raw.sel := by
  have hagg : ∀ l bs, readEach (readAgg lib) l = .ok bs ↔ EachOf (fun r p => PrimGiven lib true r p ∧ p.transform = false) l bs :=
    fun l bs => readEach_ok.trans (eachOf_iff fun r p => readAgg_ok ho ha)
  have htr : ∀ l bs, readEach (readTrans lib) l = .ok bs ↔ EachOf (fun r p => PrimGiven lib false r p ∧ p.transform = true) l bs :=
    fun l bs => readEach_ok.trans (eachOf_iff fun r p => readTrans_ok ho ht)
  have hwh : ∀ l bs, readEach (readWhere lib) l = .ok bs ↔ EachOf (PrimGiven lib true) l bs :=
    fun l bs => readEach_ok.trans (eachOf_iff fun r p => readWhere_ok ho ha)
  have hop := fun out => readPrimitiveOptions_ok ho ha ht hd (acc := []) (out := out) (by simp)
  have hent : (ents.any fun d => d.id == raw.target) = true ↔ ∃ d ∈ ents, d.id = raw.target := by simp
  unfold readArgs
  constructor
  · intro h
    split at h
    · cases h
    next h0 =>
    split at h
    · cases h
    next ie e1 =>
    split at h
    · cases h
    next iv e2 =>
    split at h
    · cases h
    next ag e3 =>
    split at h
    · cases h
    next tr e4 =>
    split at h
    · cases h
    next wh e5 =>
    split at h
    · cases h
    next gb e6 =>
    split at h
    · cases h
    next op e7 =>
    cases h
    obtain ⟨o1, o2, o3⟩ := (hop op).mp e7
    exact ⟨hent.mp (by simpa using h0), readIgnore_ok.mp e1, readIgnoreVars_ok.mp e2, (hagg _ _).mp e3, (htr _ _).mp e4, (hwh _ _).mp e5,
      (htr _ _).mp e6, o1, o2, by simpa using o3, rfl, rfl, rfl, rfl, rfl, rfl⟩
  · rintro ⟨h0, h1, h2, h3, h4, h5, h6, h7, h8, h9, t1, t2, t3, t4, t5, t6⟩
    rw [hent.mpr h0, readIgnore_ok.mpr h1, readIgnoreVars_ok.mpr h2, (hagg _ _).mpr h3, (htr _ _).mpr h4, (hwh _ _).mpr h5,
      (htr _ _).mpr h6, (hop a.options).mpr ⟨h7, h8, by simpa using h9⟩]
    simp only [Bool.not_true, Bool.false_eq_true, if_false, ← t1, ← t2, ← t3, ← t4, ← t5, ← t6]

/-- C75, where the walk can go: once the arguments are accepted, the synthesis starts. -/
theorem C75_starts (ho : ∀ l, (lib.setOrder l).Perm l) (ha : LowerNamesApart lib true) (ht : LowerNamesApart lib false)
    (hd : DictKeys (raw.options.getD [])) {a : DfsArgs} (h : readArgs lib ents raw = .ok a) (L : Lang) (equalScalar : Val → Prim)
    (rels : List Relationship) : ∃ S, configure L equalScalar ents rels a = .ok S ∧
      dfsCall L equalScalar lib ents rels raw = buildFeatures S raw.target raw.maxDepth raw.sel := by
  obtain ⟨h0, h1, _, h3, h4, _, h6, _, _, _, t1, t2, _, _, _, t6⟩ := (C75_read ho ha ht hd).mp h
  have b0 : (ents.any fun d => d.id == a.target) = true := by rw [t1]; simpa using h0
  have b1 : a.ignoreEntities.contains a.target = false := by
    rw [t1]
    generalize a.ignoreEntities = l at h1
    generalize raw.ignoreEntities = x at h1
    cases h1 with
    | none => rfl
    | list hn => simpa using hn
  have b2 : (a.aggs.any fun p => p.transform) = false := by
    rw [List.any_eq_false]
    intro p hp
    obtain ⟨r, _, _, hk⟩ := h3.mem_right p hp
    simp [hk]
  have b3 : ((a.trans ++ a.groupbys).any fun p => !p.transform) = false := by
    rw [List.any_eq_false]
    intro p hp
    rcases List.mem_append.mp hp with hp | hp
    · obtain ⟨r, _, _, hk⟩ := h4.mem_right p hp; simp [hk]
    · obtain ⟨r, _, _, hk⟩ := h6.mem_right p hp; simp [hk]
  have hc : ∃ S, configure L equalScalar ents rels a = .ok S := by
    unfold configure
    rw [b0, b1, b2, b3]
    exact ⟨_, rfl⟩
  obtain ⟨S, hS⟩ := hc
  refine ⟨S, hS, ?_⟩
  unfold dfsCall dfsFeatures
  rw [h]
  dsimp only
  rw [hS, t1, t2, t6]

/-- C75, the options as written are the ones that apply to a primitive: those of the entry naming the instance, else those of the entry
naming its class or its name. -/
theorem C75_options_apply (ho : ∀ l, (lib.setOrder l).Perm l) (ha : LowerNamesApart lib true) (ht : LowerNamesApart lib false)
    (hd : DictKeys (raw.options.getD [])) {a : DfsArgs} (h : readArgs lib ents raw = .ok a) (p : Prim) (os : List POption) :
    UserOptions a.options p os ↔
      (∃ e ∈ raw.options.getD [], RawKey.inst p ∈ e.1 ∧ EachOf OptionMeans (optionsGiven e.2) os) ∨
      (∀ e ∈ raw.options.getD [], RawKey.inst p ∉ e.1) ∧
        ∃ e ∈ raw.options.getD [], (RawKey.text p.name ∈ e.1 ∨ ∃ c, RawKey.cls c ∈ e.1 ∧ c.name = p.name) ∧
          EachOf OptionMeans (optionsGiven e.2) os := by
  obtain ⟨_, _, _, _, _, _, _, h7, h8, h9, _⟩ := (C75_read ho ha ht hd).mp h
  have hl : ∀ (l : List (PKey × List POption)), (l.map Prod.fst).Nodup → ∀ k os, l.lookup k = some os ↔ (k, os) ∈ l := by
    intro l hn k os
    induction l with
    | nil => simp
    | cons q l ih =>
      obtain ⟨x, y⟩ := q
      simp only [List.map_cons, List.nodup_cons] at hn
      rw [List.lookup_cons]
      by_cases hk : k = x
      · subst hk
        simp only [beq_self_eq_true, Option.some.injEq, List.mem_cons, Prod.mk.injEq, true_and]
        constructor
        · rintro rfl; exact Or.inl rfl
        · rintro (rfl | hm)
          · rfl
          · exact absurd (List.mem_map.mpr ⟨_, hm, rfl⟩) hn.1
      · rw [beq_false_of_ne hk]
        simp only [List.mem_cons, Prod.mk.injEq, hk, false_and, false_or]
        exact ih hn.2
  have hm : ∀ k os, a.options.lookup k = some os ↔
      ∃ e ∈ raw.options.getD [], (∃ x ∈ e.1, keyFor x = k) ∧ EachOf OptionMeans (optionsGiven e.2) os := by
    intro k os
    rw [hl _ h8, h9, List.mem_flatMap]
    constructor
    · rintro ⟨e, he, hmem⟩
      obtain ⟨x, hx, hxe⟩ := List.mem_map.mp hmem
      cases hxe
      exact ⟨e, he, ⟨x, hx, rfl⟩, eachMeans.mpr ⟨(h7 e he).proper, rfl⟩⟩
    · rintro ⟨e, he, ⟨x, hx, rfl⟩, h⟩
      obtain ⟨_, rfl⟩ := eachMeans.mp h
      exact ⟨e, he, List.mem_map.mpr ⟨x, hx, rfl⟩⟩
  have hi : ∀ (e : List RawKey × RawOptions), (∃ x ∈ e.1, keyFor x = .inst p) ↔ RawKey.inst p ∈ e.1 := by
    intro e
    constructor
    · rintro ⟨x, hx, hk⟩
      cases x with
      | text s => cases hk
      | cls c => cases hk
      | inst q => cases hk; exact hx
    · intro h; exact ⟨_, h, rfl⟩
  have hn : ∀ (e : List RawKey × RawOptions), (∃ x ∈ e.1, keyFor x = .named p.name) ↔
      (RawKey.text p.name ∈ e.1 ∨ ∃ c, RawKey.cls c ∈ e.1 ∧ c.name = p.name) := by
    intro e
    constructor
    · rintro ⟨x, hx, hk⟩
      cases x with
      | text s => simp only [keyFor, PKey.named.injEq] at hk; subst hk; exact Or.inl hx
      | cls c => simp only [keyFor, PKey.named.injEq] at hk; exact Or.inr ⟨c, hx, hk⟩
      | inst q => cases hk
    · rintro (h | ⟨c, h, hc⟩)
      · exact ⟨_, h, rfl⟩
      · exact ⟨_, h, by simp [keyFor, hc]⟩
  have hnone : a.options.lookup (.inst p) = none ↔ ∀ e ∈ raw.options.getD [], RawKey.inst p ∉ e.1 := by
    constructor
    · intro hno e he hx
      have := (hm (.inst p) _).mpr ⟨e, he, (hi e).mpr hx, eachMeans.mpr ⟨(h7 e he).proper, rfl⟩⟩
      rw [hno] at this
      cases this
    · intro hno
      cases e : a.options.lookup (.inst p) with
      | none => rfl
      | some os =>
        obtain ⟨x, hx, hk, _⟩ := (hm _ _).mp e
        exact absurd ((hi x).mp hk) (hno x hx)
  unfold UserOptions
  rw [hm, hm, hnone]
  simp only [hi, hn]

/-! ## What is refused, and how -/

/-- C75, unknown names: a text no class answers to, whatever its case, is a `ValueError`, for aggregation, transform and where
primitives. -/
theorem C75_unknown (ho : ∀ l, (lib.setOrder l).Perm l) (s : String) :
    ((∀ c, ¬Offers lib true (lib.lower s) c) → readAgg lib (.text s) = .error .valueError ∧ readWhere lib (.text s) = .error .valueError) ∧
    ((∀ c, ¬Offers lib false (lib.lower s) c) → readTrans lib (.text s) = .error .valueError) := by
  constructor
  · intro h
    have : (getAggregationPrimitives lib).lookup (lib.lower s) = none := by
      cases e : (getAggregationPrimitives lib).lookup (lib.lower s) with
      | none => rfl
      | some c => exact absurd ((offered ho true (lib.lower s)).1 c e) (h c)
    simp [readAgg, readWhere, lookupText, this]
  · intro h
    have : (getTransformPrimitives lib).lookup (lib.lower s) = none := by
      cases e : (getTransformPrimitives lib).lookup (lib.lower s) with
      | none => rfl
      | some c => exact absurd ((offered ho false (lib.lower s)).1 c e) (h c)
    simp [readTrans, lookupText, this]

/-- C75, wrong kinds: an instance or a class of the other kind is a `ValueError`. -/
theorem C75_kind (r : RawPrim) (p : Prim) (hr : r = .inst p ∨ ∃ c, r = .cls c ∧ c.make = .ok p) :
    (p.transform = true → readAgg lib r = .error .valueError) ∧ (p.transform = false → readTrans lib r = .error .valueError) := by
  rcases hr with rfl | ⟨c, rfl, hc⟩
  · exact ⟨fun h => by simp [readAgg, lookupText, handlePrimitive, h], fun h => by simp [readTrans, lookupText, handlePrimitive, h]⟩
  · exact ⟨fun h => by simp [readAgg, lookupText, handlePrimitive, hc, h], fun h => by simp [readTrans, lookupText, handlePrimitive, hc, h]⟩

/-- C75, what is ignored: something that is no list is a `TypeError`, a list with the target an `AssertionError`; keys that are no
texts, values that are no lists of texts a `TypeError`. -/
theorem C75_ignored (target : String) (r : RawIgnore) (v : RawIgnoreVars) :
    (r = .other → readIgnore target r = .error .typeError) ∧
    (∀ l, r = .list l → target ∈ l → readIgnore target r = .error .assertionError) ∧
    ((∀ d, ¬IgnoreVarsGiven (some v) d) → readIgnoreVars (some v) = .error .typeError) := by
  refine ⟨by rintro rfl; rfl, by rintro l rfl h; simp [readIgnore, h], fun h => ?_⟩
  cases e : readIgnoreVars (some v) with
  | ok d => exact absurd (readIgnoreVars_ok.mp e) (h d)
  | error x =>
    simp only [readIgnoreVars] at e
    split at e
    · cases e; rfl
    · split at e
      · cases e; rfl
      · cases e

/-- The first option that is unknown or of the wrong type. -/
theorem readOptionFrom_bad {named : Bool} {o : POption} {d : List (String × OptVal)} {x : PyErr} (h : readOptionFrom named o d = .error x) :
    ∃ pre k v post, d = pre ++ (k, v) :: post ∧ OptionsProper pre ∧
      (k ∉ entityOptions ∧ k ∉ variableOptions ∧ x = (if named then .keyError else .typeError) ∨
       k ∈ entityOptions ∧ (∀ l, v ≠ .list l) ∧ x = .typeError ∨
       k ∈ variableOptions ∧ (∀ m, v = .dict m → ∃ p ∈ m, p.2 = none) ∧ x = .typeError) := by
  induction d generalizing o with
  | nil => cases h
  | cons q d ih =>
    obtain ⟨k, v⟩ := q
    simp only [readOptionFrom] at h
    have hsome : ∀ o', setOption o k v = some (some o') →
        (k ∈ entityOptions ∧ (∃ l, v = .list l) ∨ k ∈ variableOptions ∧ ∃ m, v = .dict m ∧ ∀ p ∈ m, p.2 ≠ none) :=
      fun o' e => (setOption_ok (d := []) rfl e).1
    cases e : setOption o k v with
    | none =>
      rw [e] at h
      cases h
      refine ⟨[], k, v, d, rfl, by simp [OptionsProper], Or.inl ⟨?_, ?_, rfl⟩⟩
      · intro hk
        simp only [entityOptions, List.mem_cons, List.not_mem_nil, or_false] at hk
        rcases hk with rfl | rfl | rfl | rfl <;> simp [setOption] at e
      · intro hk
        simp only [variableOptions, List.mem_cons, List.not_mem_nil, or_false] at hk
        rcases hk with rfl | rfl | rfl | rfl <;> simp [setOption] at e
    | some y =>
      rw [e] at h
      cases y with
      | none =>
        cases h
        refine ⟨[], k, v, d, rfl, by simp [OptionsProper], Or.inr ?_⟩
        have hk : k ∈ entityOptions ∨ k ∈ variableOptions := by
          apply Classical.byContradiction
          intro hk
          simp only [entityOptions, variableOptions, List.mem_cons, List.not_mem_nil, or_false, not_or] at hk
          simp [setOption, hk] at e
        rcases hk with hk | hk
        · refine Or.inl ⟨hk, ?_, rfl⟩
          rintro l rfl
          obtain ⟨o', e'⟩ := setOption_some o (k := k) (v := .list l) (Or.inl ⟨hk, l, rfl⟩)
          rw [e'] at e; cases e
        · refine Or.inr ⟨hk, ?_, rfl⟩
          rintro m rfl
          apply Classical.byContradiction
          intro hno
          obtain ⟨o', e'⟩ := setOption_some o (k := k) (v := .dict m) (Or.inr ⟨hk, m, rfl, fun p hp hn => hno ⟨p, hp, hn⟩⟩)
          rw [e'] at e; cases e
      | some o' =>
        obtain ⟨pre, k', v', post, rfl, hp, hc⟩ := ih h
        refine ⟨(k, v) :: pre, k', v', post, rfl, ?_, hc⟩
        intro a b hab
        rcases List.mem_cons.mp hab with hab | hab
        · cases hab; exact hsome o' e
        · exact hp a b hab

/-- C75, faulty options: what is no dict is an `AttributeError`; in a dict, the first option that is unknown or of the wrong type decides,
with a `KeyError` (for primitives given by name) or a `TypeError`. -/
theorem C75_faulty {named : Bool} {r : RawOption} {x : PyErr} (h : readOption named r = .error x) :
    r = .other ∧ x = .attributeError ∨
    ∃ pre k v post, r = .dict (pre ++ (k, v) :: post) ∧ OptionsProper pre ∧
      (k ∉ entityOptions ∧ k ∉ variableOptions ∧ x = (if named then .keyError else .typeError) ∨
       k ∈ entityOptions ∧ (∀ l, v ≠ .list l) ∧ x = .typeError ∨
       k ∈ variableOptions ∧ (∀ m, v = .dict m → ∃ p ∈ m, p.2 = none) ∧ x = .typeError) := by
  cases r with
  | other => cases h; exact Or.inl ⟨rfl, rfl⟩
  | dict d =>
    obtain ⟨pre, k, v, post, rfl, hp, hc⟩ := readOptionFrom_bad h
    exact Or.inr ⟨pre, k, v, post, rfl, hp, hc⟩

/-- C75, a wrong number of options for a primitive's inputs is an `AssertionError`, and a list of options for a name no class has exactly
a `ValueError`. -/
theorem C75_counts (ho : ∀ l, (lib.setOrder l).Perm l) (ha : LowerNamesApart lib true) (ht : LowerNamesApart lib false) (k : RawKey) (l : List RawOption) :
    (∀ n, TakesInputs lib k n → n ≠ l.length → readOptions lib [k] (.many l) = .error .assertionError) ∧
    (∀ s, k = .text s → (∀ c, ¬Offers lib true s c) → (∀ c, ¬Offers lib false s c) → readOptions lib [k] (.many l) = .error .valueError) := by
  constructor
  · intro n hn hne
    simp only [readOptions, checkArities, (keyArity_ok ho ha ht).mpr hn]
    rw [if_neg hne]
  · rintro s rfl h1 h2
    have hk : keyArity lib (.text s) = .error .valueError := by
      cases e : keyArity lib (.text s) with
      | ok n =>
        cases (keyArity_ok ho ha ht).mp e with
        | agg h => exact absurd h (h1 _)
        | trans _ h => exact absurd h (h2 _)
      | error x =>
        simp only [keyArity] at e
        split at e
        · cases e
        · split at e
          · cases e
          · cases e; rfl
    simp only [readOptions, checkArities, hk]

/-- C75, two entries for one primitive are a `KeyError`. -/
theorem C75_twice (ho : ∀ l, (lib.setOrder l).Perm l) (ha : LowerNamesApart lib true) (ht : LowerNamesApart lib false)
    {opts : List (List RawKey × RawOptions)} (hd : DictKeys opts) (hok : ∀ e ∈ opts, EntryOk lib e)
    (htwice : ¬((opts.flatMap entrySays).map Prod.fst).Nodup) : readPrimitiveOptions lib [] opts = .error .keyError := by
  have hstore : ∀ os (ks : List RawKey) acc x, storeKeys os acc ks = .error x → x = .keyError := by
    intro os ks
    induction ks with
    | nil => intro acc x h; cases h
    | cons k ks ih =>
      intro acc x h
      simp only [storeKeys] at h
      split at h
      · cases h; rfl
      · exact ih _ _ h
  have key : ∀ (opts : List (List RawKey × RawOptions)) acc x, DictKeys opts → (∀ e ∈ opts, EntryOk lib e) →
      readPrimitiveOptions lib acc opts = .error x → x = .keyError := by
    intro opts
    induction opts with
    | nil => intro acc x _ _ h; cases h
    | cons e opts ih =>
      obtain ⟨keys, o⟩ := e
      intro acc x hd hok h
      simp only [readPrimitiveOptions] at h
      rw [(readOptions_ok ho ha ht (e := (keys, o)) (hd _ List.mem_cons_self)).mpr ⟨hok _ List.mem_cons_self, rfl⟩] at h
      dsimp only at h
      split at h
      · next e' => cases h; exact hstore _ _ _ _ e'
      · exact ih _ _ (fun e he => hd e (List.mem_cons_of_mem _ he)) (fun e he => hok e (List.mem_cons_of_mem _ he)) h
  cases e : readPrimitiveOptions lib [] opts with
  | error x => rw [key opts [] x hd hok e]
  | ok out =>
    obtain ⟨_, h2, h3⟩ := (readPrimitiveOptions_ok ho ha ht hd (acc := []) (by simp)).mp e
    rw [h3, List.nil_append] at h2
    exact absurd h2 htwice

end

/-! ## A concrete library -/

namespace RawExample
open DfsExample

/-- Lower case, on the letters the examples use. -/
def low (s : String) : String := String.ofList (s.toList.map Char.toLower)
def cSum : LibClass := ⟨0, "sum", true, false, 1, .ok sum⟩
def cCount : LibClass := ⟨1, "count", true, false, 1, .ok count⟩
def cAdd : LibClass := ⟨2, "add_numeric", false, true, 2, .ok add⟩
/-- A class a user made, whose name differs from that of `Sum` in its case only. -/
def cSum2 : LibClass := ⟨3, "Sum", true, false, 1, .ok DfsExample.minMax⟩
def rawLib : Library := ⟨[("AddNumeric", cAdd), ("Count", cCount), ("Sum", cSum)], id, low, [cSum], [cAdd], cCount⟩
/-- Two aggregation primitives by name, in any case, one transform primitive by class; the sum leaves out the sessions' lengths. -/
def raw : RawArgs :=
  { target := "customers", maxDepth := 2, aggs := some [.text "SUM", .text "count"], trans := some [.cls cAdd], wheres := none, groupbys := none,
    allowedPaths := [], ignoreEntities := .none, ignoreVariables := none,
    options := some [([.text "sum"], .one (.dict [("ignore_variables", .dict [("sessions", some ["len"])])])),
      ([.cls cAdd], .many [.dict [], .dict [("include_entities", .list ["customers"])]])],
    seeds := [], whereLimit := 1, sel := ⟨none, [], [], -1⟩ }

theorem order : ∀ l, (rawLib.setOrder l).Perm l := fun l => .refl l

theorem offers {agg : Bool} {n : String} {c : LibClass} (h : Offers rawLib agg n c) :
    agg = true ∧ (c = cSum ∧ n = "sum" ∨ c = cCount ∧ n = "count") ∨ agg = false ∧ c = cAdd ∧ n = "add_numeric" := by
  obtain ⟨⟨a, hm⟩, hk, _, hn⟩ := h
  simp only [rawLib, List.mem_cons, Prod.mk.injEq, List.not_mem_nil, or_false] at hm
  rcases hm with ⟨_, rfl⟩ | ⟨_, rfl⟩ | ⟨_, rfl⟩ <;> cases agg
  · exact Or.inr ⟨rfl, rfl, by rw [← hn]; decide⟩
  · cases hk
  · cases hk
  · exact Or.inl ⟨rfl, Or.inr ⟨rfl, by rw [← hn]; decide⟩⟩
  · cases hk
  · exact Or.inl ⟨rfl, Or.inl ⟨rfl, by rw [← hn]; decide⟩⟩

theorem apart (agg : Bool) : LowerNamesApart rawLib agg := by
  intro n c d hc hd
  rcases offers hc with ⟨rfl, h | h⟩ | ⟨rfl, h⟩ <;> rcases offers hd with ⟨h', h2 | h2⟩ | ⟨h', h2⟩ <;>
    first
    | (cases h'; done)
    | (rw [h.1, h2.1]; done)
    | (rw [h.2] at h2; exact absurd h2.2 (by decide))

theorem dicts : DictKeys (raw.options.getD []) := by
  intro e he d hd
  simp only [raw, Option.getD_some, List.mem_cons, List.not_mem_nil, or_false] at he
  rcases he with rfl | rfl
  · simp only [optionsGiven, List.mem_cons, RawOption.dict.injEq, List.not_mem_nil, or_false] at hd; subst hd; simp
  · simp only [optionsGiven, List.mem_cons, RawOption.dict.injEq, List.not_mem_nil, or_false] at hd
    rcases hd with rfl | rfl <;> simp

/-- The arguments are accepted and the synthesis runs: there is no sum of the lengths. -/
example : outcome (dfsCall lang eq rawLib [custs, sess] rels raw) =
    some ["age", "count(sessions.id)", "count(sessions.id WHERE equal_scalar(device = pc))", "add_numeric(count(sessions.id),age)"] := by
  decide +kernel

example : ∃ a, readArgs rawLib [custs, sess] raw = .ok a ∧ a.aggs = [sum, count] ∧
    UserOptions a.options sum [{ ignoreVars := [("sessions", ["len"])] }] := by
  refine ⟨_, rfl, rfl, ?_⟩
  refine (C75_options_apply (lib := rawLib) (ents := [custs, sess]) (raw := raw) order (apart true) (apart false) dicts rfl sum _).mpr (Or.inr ⟨?_, ?_⟩)
  · intro e he h
    simp only [raw, Option.getD_some, List.mem_cons, List.not_mem_nil, or_false] at he
    rcases he with rfl | rfl <;> simp at h
  · refine ⟨([.text "sum"], .one (.dict [("ignore_variables", .dict [("sessions", some ["len"])])])), by simp [raw], Or.inl (by simp [sum, aggP]), ?_⟩
    refine .cons ⟨_, rfl, ?_, rfl⟩ .nil
    intro k v h
    simp only [List.mem_singleton, Prod.mk.injEq] at h
    obtain ⟨rfl, rfl⟩ := h
    exact Or.inr ⟨by decide, _, rfl, by simp⟩

example : readArgs rawLib [custs, sess] { raw with aggs := some [.text "summ"] } = .error .valueError := rfl
example : readArgs rawLib [custs, sess] { raw with aggs := some [.inst add] } = .error .valueError := rfl
example : readArgs rawLib [custs, sess] { raw with ignoreEntities := .list ["customers"] } = .error .assertionError := rfl
example : readArgs rawLib [custs, sess] { raw with options := some [([.cls cAdd], .many [.dict []])] } = .error .assertionError := rfl
example : readArgs rawLib [custs, sess] { raw with options := some [([.cls cAdd, .text "add_numeric"], .one (.dict []))] } = .error .keyError := rfl
example : readArgs rawLib [custs, sess] { raw with options := some [([.text "sum"], .one (.dict [("ignore_entity", .list [])]))] } = .error .keyError := rfl

end RawExample

/-! ## Where the code does something else -/

open DfsExample RawExample in
/-- C75 fails for where primitives: a transform primitive in `where_primitives` is accepted, though one in `agg_primitives` is not. -/
theorem C75_where_kind_violated :
    (∃ a, readArgs RawExample.rawLib [custs, sess] { raw with wheres := some [.inst add] } = .ok a ∧ add ∈ a.wheres ∧ add.transform = true) ∧
    readArgs RawExample.rawLib [custs, sess] { raw with aggs := some [.inst add] } = .error .valueError :=
  ⟨⟨_, rfl, by simp, rfl⟩, rfl⟩

open DfsExample RawExample in
/-- C75 fails for names in options: a name is accepted in any case (or misspelt) there, and then its options are not used: the primitive
given as "SUM" with options for "SUM" sums the lengths it was told to ignore, and no error says so. -/
theorem C75_option_name_violated :
    outcome (dfsCall lang eq RawExample.rawLib [custs, sess] rels { raw with aggs := some [.text "SUM"], options := some [([.text "SUM"], .one (.dict [("ignore_variables", .dict [("sessions", some ["len"])])]))] }) =
      some ["age", "sum(sessions.len)", "add_numeric(age,sum(sessions.len))"] ∧
    (∀ c agg, ¬Offers RawExample.rawLib agg "SUM" c) := by
  refine ⟨by decide +kernel, fun c agg h => ?_⟩
  rcases offers h with ⟨_, h | h⟩ | ⟨_, h⟩ <;> exact absurd h.2 (by decide)

open DfsExample RawExample in
/-- C75 fails for the message about an unknown option: for a primitive given as a class it is a `TypeError` of the message, not the
`KeyError` that names the option. -/
theorem C75_message_violated :
    readArgs RawExample.rawLib [custs, sess] { raw with options := some [([.cls cSum], .one (.dict [("ignore_entity", .list [])]))] } = .error .typeError ∧
    readArgs RawExample.rawLib [custs, sess] { raw with options := some [([.text "sum"], .one (.dict [("ignore_entity", .list [])]))] } = .error .keyError :=
  ⟨rfl, rfl⟩

open DfsExample RawExample in
/-- C75 needs names apart: with two classes whose names differ only in their case, which one a text stands for depends on the order in
which a set is walked through; and neither spelling reaches the other class. -/
theorem C75_case_violated :
    ∃ l₁ l₂ : Library, l₁.attrs = l₂.attrs ∧ (∀ l, (l₁.setOrder l).Perm l) ∧ (∀ l, (l₂.setOrder l).Perm l) ∧
      readAgg l₁ (.text "sum") = .ok DfsExample.minMax ∧ readAgg l₁ (.text "Sum") = .ok DfsExample.minMax ∧
      readAgg l₂ (.text "sum") = .ok sum ∧ readAgg l₂ (.text "Sum") = .ok sum :=
  ⟨{ RawExample.rawLib with attrs := [("Sum", cSum), ("Sum2", cSum2)] },
   { RawExample.rawLib with attrs := [("Sum", cSum), ("Sum2", cSum2)], setOrder := List.reverse },
   rfl, fun l => .refl l, fun l => List.reverse_perm l, by decide +kernel, by decide +kernel, by decide +kernel, by decide +kernel⟩

end FT
