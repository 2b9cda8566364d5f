import Verif.Lemmas.DaskNode
import Verif.Lemmas.CalcExample2
import Verif.Props.Aggregate

/-! # C78: features on Dask entity sets -/
namespace FT
open Spec

theorem sublist_eq_filter {α : Type} (P : α → Bool) : ∀ {l m : List α}, l.Sublist m → m.Nodup → (∀ x, x ∈ l ↔ x ∈ m ∧ P x = true) → l = m.filter P
  | _, _, .slnil, _, _ => rfl
  | l, a :: m, .cons _ hs, hn, h => by
    rw [List.nodup_cons] at hn
    have ha : ¬ P a = true := by
      intro hp
      have := (h a).mpr ⟨by simp, hp⟩
      exact hn.1 (hs.subset this)
    rw [List.filter_cons, if_neg ha]
    refine sublist_eq_filter P hs hn.2 fun x => ?_
    rw [h x, List.mem_cons]
    constructor
    · rintro ⟨rfl | hx, hp⟩
      · exact absurd hp ha
      · exact ⟨hx, hp⟩
    · rintro ⟨hx, hp⟩; exact ⟨.inr hx, hp⟩
  | a :: l, _ :: m, .cons_cons _ hs, hn, h => by
    rw [List.nodup_cons] at hn
    have ha := ((h a).mp (by simp)).2
    rw [List.filter_cons, if_pos ha, ← sublist_eq_filter P hs hn.2 fun x => ?_]
    constructor
    · intro hx
      have := (h x).mp (by simp [hx])
      refine ⟨?_, this.2⟩
      exact hs.subset hx
    · rintro ⟨hx, hp⟩
      rcases List.mem_cons.mp ((h x).mpr ⟨by simp [hx], hp⟩) with rfl | h'
      · exact absurd hx hn.1
      · exact h'

/-- C78: on a Dask entity set the calculator gives one row for every visible instance asked for, with the values the features
mean (so the values of the pandas calculator), in whatever order and however the rows are spread over partitions.  It gives
no row for other ids. -/
theorem C78_values_partial {A : Arrange} (F : FairArrange A) {env : Env} {targets : List Feat} {e : String} (R : Regular env targets e)
    (hw : env.window = none) (hdask : ∀ f, NeededBy targets f → DaskFeature A f) (ids : List Val) (hids : ∃ i ∈ ids, i ≠ .null) :
    ∃ rows, runDask A env targets e ids = .ok rows ∧
      rows.Perm ((((worldOf env).ids e).filter (· ∈ ids)).map fun id => (id, targets.flatMap fun f => meaning (worldOf env) f id)) := by
  have R' := R.given
  have hno : ∀ f, NeededBy targets f → f.usesFull = false := by
    intro f hf
    have := hdask f hf
    unfold DaskFeature at this
    unfold Feat.usesFull
    cases hk : f.kind <;> simp_all
  obtain ⟨ent, hent, hidx⟩ := R.entityOk.get
  have hin : NodeIn env targets Given.none e ids [] (indexOf env e) ids none :=
    ⟨trivial, by exact R.entityOk.indexKey, fun _ => ⟨rfl, fun x hx => .start hx⟩, linksAt_nil env targets Given.none⟩
  obtain ⟨dT, fT, dT', hc, ho, hc', hde⟩ := daskNode_ok R' F hw hno hdask ids (rootTrie targets Given.none) [] (indexOf env e) ids ids none none rfl (WF_buildTrie _ _) hin
    (fun _ => Iff.rfl) trivial
  obtain ⟨df, hdf, hsub, B, hB, hfr⟩ := ho.frames [] trivial
  have hask := ho.asked
  have hE : pathEnd e [] = e := rfl
  simp only [idsAt, hdf, Option.map_some, Option.getD_some, hE] at hask
  have hde0 := hde []
  rw [hdf] at hde0
  cases hdf' : frameAt dT' [] with
  | none => rw [hdf'] at hde0; exact hde0.elim
  | some df' =>
    rw [hdf'] at hde0
    have hval' : dT'.value = some df' := by
      obtain ⟨x, cs⟩ := dT'
      exact hdf'
    have hnull : (ids.all fun i => decide (i = .null)) = false := by
      rw [List.all_eq_false]
      obtain ⟨i, hi, hne⟩ := hids
      exact ⟨i, hi, by simpa using hne⟩
    have hemp : ids.isEmpty = false := by
      obtain ⟨i, hi, _⟩ := hids
      cases ids with
      | nil => cases hi
      | cons a l => rfl
    have hcalc : daskNode A env (lookupFeature (featuresByName targets)) (buildTrie targets (Trie.new [])) [] e ent.index ids none = .ok dT' := by
      rw [← hidx]; exact hc'
    have hcolT : ∀ f ∈ targets, (∀ n ∈ f.names, n ∈ df.cols) ∧ ∀ r ∈ df.rows, f.names.map r = meaning (worldOf env) f (r (indexOf env e)) := by
      intro f hf
      have := hfr.done f (.inl ⟨_, .target hf (by rw [R'.targetsComputed]; simp)⟩)
      simp only [List.append_nil, hE, meaningAt_none] at this
      exact this
    have hidc : indexOf env e ∈ df.cols := (hfr.base _ (hB.key _ (by exact R.entityOk.indexKey))).1
    have hcols : hasCols df' (targets.flatMap Feat.names ++ [ent.index]) = true := by
      rw [hasCols_iff]
      intro c hc
      rw [← hde0.1]
      rcases List.mem_append.mp hc with hc | hc
      · obtain ⟨f, hf, hn⟩ := List.mem_flatMap.mp hc
        exact (hcolT f hf).1 c hn
      · simp only [List.mem_cons, List.not_mem_nil, or_false] at hc
        rw [hc, ← hidx]; exact hidc
    refine ⟨df'.rows.map fun r => (r ent.index, (targets.flatMap Feat.names).map r), ?_, ?_⟩
    · unfold runDask
      simp only [hw, Option.isSome_none, Bool.false_eq_true, if_false, hemp, hnull, Bool.and_false, Env.getEnt, hent, hcalc, hval', daskCollect, hcols, if_true]
    · rw [← hidx]
      refine ((hde0.2.map _).symm).trans (List.Perm.of_eq ?_)
      have hrow : (df.rows.map fun r => (r (indexOf env e), (targets.flatMap Feat.names).map r)) =
          (df.rows.map fun r => r (indexOf env e)).map fun id => (id, targets.flatMap fun f => meaning (worldOf env) f id) := by
        rw [List.map_map]
        apply List.map_congr_left
        intro r hr
        simp only [Function.comp, Prod.mk.injEq, true_and]
        rw [List.map_flatMap]
        apply flatMap_congr'
        intro f hf
        exact (hcolT f hf).2 r hr
      rw [hrow]
      congr 1
      simp only [List.append_nil, hE] at hsub
      refine sublist_eq_filter _ hsub (visible_ids R.entityOk R.window).1 fun x => ?_
      obtain ⟨_, h3, h4⟩ := hask
      simp only [decide_eq_true_eq]
      constructor
      · intro hx
        have hv := hsub.subset hx
        refine ⟨hv, ?_⟩
        have := h4 x hx
        rw [cell_index R.entityOk R.window hv] at this
        rcases this with h | h
        · exact h
        · subst h; exact absurd hv (visible_ids R.entityOk R.window).2
      · rintro ⟨hv, hx⟩
        refine h3 x hv ?_ ?_
        · rw [cell_index R.entityOk R.window hv]; exact hx
        · rw [cell_index R.entityOk R.window hv]
          rintro rfl
          exact (visible_ids R.entityOk R.window).2 hv

/-- C78: asked for distinct visible instances, the Dask calculator gives the rows of the pandas calculator, in some order. -/
theorem C78_same_as_pandas_partial {A : Arrange} (F : FairArrange A) {env : Env} {targets : List Feat} {e : String} (R : Regular env targets e)
    (hw : env.window = none) (hdask : ∀ f, NeededBy targets f → DaskFeature A f) (ids : List Val) (hne : ids ≠ []) (hnd : ids.Nodup)
    (hvis : ∀ i ∈ ids, i ∈ (worldOf env).ids e) :
    ∃ rows rows', runCalc env targets (Trie.new []) (Trie.new none) e ids = .ok rows ∧ runDask A env targets e ids = .ok rows' ∧ rows'.Perm rows := by
  have hV := visible_ids R.entityOk R.window
  obtain ⟨i, hi⟩ := List.exists_mem_of_ne_nil _ hne
  obtain ⟨rows', h', hp⟩ := C78_values_partial F R hw hdask ids ⟨i, hi, fun h => hV.2 (h ▸ hvis i hi)⟩
  have hrun := run_ok R ids hne
  rw [if_neg (fun h => h i hi (hvis i hi)), if_pos (by
    rw [List.filter_eq_nil_iff.mpr]
    · exact List.Pairwise.nil
    · intro x hx; simpa using hvis x hx), (dedup_eq_self ids).mpr hnd] at hrun
  refine ⟨_, rows', hrun, h', hp.trans ?_⟩
  have hperm : (((worldOf env).ids e).filter (· ∈ ids)).Perm ids := by
    apply (List.perm_ext_iff_of_nodup (hV.1.filter _) hnd).mpr
    intro x
    simp only [List.mem_filter, decide_eq_true_eq]
    exact ⟨fun h => h.2, fun h => ⟨hvis x h, h⟩⟩
  refine (hperm.map _).trans (List.Perm.of_eq ?_)
  apply List.map_congr_left
  intro x hx
  simp only [answer, if_pos (hvis x hx)]

/-- C78: when only missing values are asked for, the answer is made of defaults, as on pandas. -/
theorem C78_nothing_asked_partial {A : Arrange} {env : Env} {targets : List Feat} {e : String} (R : Regular env targets e)
    (hw : env.window = none) (hno : ∀ f, NeededBy targets f → f.usesFull = false) (ids : List Val) (hne : ids ≠ []) (hnull : ∀ i ∈ ids, i = .null) :
    runDask A env targets e ids = .ok (ids.map fun i => (i, targets.flatMap fun f => f.names.map fun _ => f.dflt)) := by
  have hneed : (buildTrie targets (Trie.new [])).value.need = false := noneNeed R.given hno []
  have hall : (ids.all fun i => decide (i = .null)) = true := by simpa using hnull
  have hemp : ids.isEmpty = false := by cases ids with | nil => exact absurd rfl hne | cons a l => rfl
  have hV := (visible_ids R.entityOk R.window).2
  unfold runDask
  simp only [hw, Option.isSome_none, Bool.false_eq_true, if_false, hemp, hneed, hall, Bool.not_false, Bool.and_self, if_true]
  rw [run_ok R ids hne, if_pos (fun i hi => by rw [hnull i hi]; exact hV)]
  congr 1
  apply List.map_congr_left
  intro i hi
  simp only [answer]
  rw [if_neg (by rw [hnull i hi]; exact hV)]

/-- C78: a training window is refused, whatever else is asked. -/
theorem C78_window_refused (A : Arrange) (env : Env) (targets : List Feat) (e : String) (ids : List Val) (w : Window) (h : env.window = some w) :
    runDask A env targets e ids = .error .valueError := by
  unfold runDask
  simp [h]

/-- C78: asking for no instances is an error, as on pandas. -/
theorem C78_no_instances (A : Arrange) (env : Env) (targets : List Feat) (e : String) (h : env.window = none) :
    runDask A env targets e [] = .error .assertionError := by
  unfold runDask
  simp [h]

/-- C78: the Dask version of `NumUnique` gives the value of the primitive, however the rows are spread and ordered. -/
theorem C78_num_unique (p : AggPrim) (hp : ∀ t col, p.fn t [col] = [.num (numUniquePd col)]) :
    SameAggregate p fun ps => .num (numUniqueDask.run ps) := by
  intro t ps col hperm hne
  rw [hp]
  have h := C54_num_unique ps (fun h => hne (by rw [h] at hperm; exact hperm.symm.eq_nil))
  show _ = [Val.num (numUniqueDask.run ps)]
  rw [h.1]
  have : numUniquePd (Parts.rowsL ps) = numUniquePd col := by
    unfold numUniquePd
    have : (dedup (dropna (Parts.rowsL ps))).Perm (dedup (dropna col)) := by
      apply (List.perm_ext_iff_of_nodup (nodup_dedup _) (nodup_dedup _)).mpr
      intro x
      rw [mem_dedup, mem_dedup, mem_dropna, mem_dropna, hperm.mem_iff]
    rw [this.length_eq]
  rw [this]


/-! ## An example -/
namespace DaskExample
open CalcExample

/-- Merges turn the rows round, groups are cut in two partitions, and the Dask version of SUM adds up all rows. -/
def cut : Arrange :=
  { order := fun _ _ rows => rows.reverse
    split := fun _ _ _ col => [.one (col.drop 1), .many [.one (col.take 1)]]
    version := fun _ => some fun ps => .num (((Parts.rowsL ps).map numOf).foldl (· + ·) 0) }

theorem fair : FairArrange cut where
  order := fun _ _ rows => List.reverse_perm rows
  split := fun _ _ _ col => by
    simp only [cut, Parts.rowsL, Parts.rows, List.append_nil]
    exact List.perm_append_comm.trans (List.Perm.of_eq (List.take_append_drop 1 col))

theorem foldl_add_perm {a b : List Int} (h : a.Perm b) : ∀ s, a.foldl (· + ·) s = b.foldl (· + ·) s := by
  induction h with
  | nil => intro s; rfl
  | cons x _ ih => intro s; exact ih _
  | swap x y l => intro s; simp only [List.foldl_cons]; congr 1; omega
  | trans _ _ ih1 ih2 => intro s; rw [ih1, ih2]

theorem same : SameAggregate sum fun ps => .num (((Parts.rowsL ps).map numOf).foldl (· + ·) 0) := by
  intro t ps col hp _
  simp only [sum, List.headD_cons]
  rw [foldl_add_perm (hp.map _)]

theorem dask : ∀ f, NeededBy Agg.targets f → DaskFeature cut f := by
  intro f hf
  rcases Agg.needed hf with rfl | rfl | rfl
  · refine ⟨rfl, ⟨amount, rfl, ?_⟩, rfl, ?_, _, rfl, same⟩
    · intro w hw
      have : w = Agg.isBig := by simpa [Agg.recent, Feat.wh] using hw
      subst this; decide
    · intro times h; cases h; rfl
  · exact rfl
  · trivial

/-- The hypotheses of the theorems are met: a conditional sum over the last four days. -/
example := C78_values_partial fair Agg.regular rfl dask [.num 2, .num 99, .num 1] ⟨.num 2, by simp, by simp⟩
example := C78_same_as_pandas_partial fair Agg.regular rfl dask [.num 2, .num 1] (by simp) (by decide) (by decide)
example := C78_nothing_asked_partial (A := cut) Agg.regular rfl (fun f hf => by rcases Agg.needed hf with rfl | rfl | rfl <;> rfl) [.null] (by simp) (by simp)
example : runDask cut env Agg.targets "customers" [.num 2, .num 1] = .ok [(.num 2, [.num 9]), (.num 1, [.num 7])] := by decide +kernel
example : ∃ w, ({ env with window := some w } : Env).window = some w := ⟨.span id, rfl⟩

/-- The id of the customer of a session, as a feature. -/
def customerId : Feat := .mk { entity := "customers", name := "id", names := ["id"], dflt := .null, kind := .identity "id" } [] []
def sessionCustomer : Feat := .mk { entity := "sessions", name := "customers.id", names := ["customers.id"], dflt := .null, kind := .direct rel } [customerId] []

/-- A running total, and its sum per customer. -/
def running : Feat := .mk { entity := "sessions", name := "CUM_SUM(amount)", names := ["CUM_SUM(amount)"], dflt := .null, kind := .trans cumsum } [amount] []
def sumOfRunning : Feat := .mk { entity := "customers", name := "SUM(sessions.CUM_SUM(amount))", names := ["SUM(sessions.CUM_SUM(amount))"], dflt := .num 0, kind := .agg [rel] sum none true } [running] []

/-- An aggregation of two columns. -/
def product : AggPrim := { usesCalcTime := false, fn := fun _ args => [.num ((((args.headD []).zip (args.getD 1 [])).map fun x => numOf x.1 * numOf x.2).foldl (· + ·) 0)] }
def twoColumns : Feat := .mk { entity := "customers", name := "PRODUCT(sessions.amount, -(amount))", names := ["PRODUCT(sessions.amount, -(amount))"], dflt := .num 0, kind := .agg [rel] product none true } [amount, minus] []

end DaskExample
open CalcExample DaskExample

/-- C78 fails for unknown ids: on pandas they get a row of defaults, on Dask none. -/
theorem C78_unknown_violated :
    runCalc env Agg.targets (Trie.new []) (Trie.new none) "customers" [.num 1, .num 99] = .ok [(.num 1, [.num 7]), (.num 99, [.num 0])] ∧
    runDask cut env Agg.targets "customers" [.num 1, .num 99] = .ok [(.num 1, [.num 7])] := by
  constructor <;> decide +kernel

/-- C78 fails for a direct feature of the parent's index: pandas gives its values, on Dask it is a `KeyError`. -/
theorem C78_index_feature_violated :
    runCalc env [sessionCustomer] (Trie.new []) (Trie.new none) "sessions" [.num 10, .num 12] = .ok [(.num 10, [.num 1]), (.num 12, [.num 2])] ∧
    runDask cut env [sessionCustomer] "sessions" [.num 10, .num 12] = .error .keyError := by
  constructor <;> decide +kernel

/-- C78 fails for group-by features: on Dask they are a `TypeError`. -/
theorem C78_groupby_violated :
    runCalc env Group.targets (Trie.new []) (Trie.new none) "sessions" [.num 10, .num 11] = .ok [(.num 10, [.num 5]), (.num 11, [.num 12])] ∧
    runDask cut env Group.targets "sessions" [.num 10, .num 11] = .error .typeError := by
  constructor <;> decide +kernel

/-- C78 fails for an aggregation of a feature that needs the whole entity: on Dask it is a `ValueError`. -/
theorem C78_full_entity_violated :
    runCalc env [sumOfRunning] (Trie.new []) (Trie.new none) "customers" [.num 2, .num 1] = .ok [(.num 2, [.num 21]), (.num 1, [.num 17])] ∧
    runDask cut env [sumOfRunning] "customers" [.num 2, .num 1] = .error .valueError := by
  constructor <;> decide +kernel

/-- At the root the full entity can be used: the running total of the second session counts the first. -/
theorem C78_full_at_root_partial : runDask cut env [running] "sessions" [.num 11] = .ok [(.num 11, [.num 12])] ∧
    runCalc env [running] (Trie.new []) (Trie.new none) "sessions" [.num 11] = .ok [(.num 11, [.num 12])] := by
  constructor <;> decide +kernel

/-- C78 fails for aggregations of several columns: on Dask they are a `TypeError`. -/
theorem C78_several_columns_violated :
    runCalc env [twoColumns] (Trie.new []) (Trie.new none) "customers" [.num 2, .num 1] = .ok [(.num 2, [.num (-81)]), (.num 1, [.num (-74)])] ∧
    runDask cut env [twoColumns] "customers" [.num 2, .num 1] = .error .typeError := by
  constructor <;> decide +kernel

end FT
