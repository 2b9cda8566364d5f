import Verif.Lemmas.Selection
/-! # Feature selection (C51, C52) -/
namespace FT
open Spec

/-- What all selections share: the rows are as before, the kept columns in their order, and the features in the result have
exactly the kept ones among the columns of the given features, in their order; a feature is given as a whole unless it
lost a column. -/
def Spec.Selects (t : Table) (features : List SelFeat) (keeps : String → Prop) (t' : Table) (features' : List Picked) : Prop :=
  t'.rows = t.rows ∧ t'.cols.Sublist t.cols ∧ (∀ c, c ∈ t'.cols ↔ c ∈ t.cols ∧ keeps c) ∧
    ((∀ f ∈ features, Sound f) → (features'.flatMap pickedNames).Sublist (features.flatMap SelFeat.names) ∧
      ∀ n, n ∈ features'.flatMap pickedNames ↔ n ∈ features.flatMap SelFeat.names ∧ n ∈ t'.cols) ∧
    ((∀ f ∈ features, Sound f) → features.flatMap SelFeat.names = t.cols → features'.flatMap pickedNames = t'.cols) ∧
    ∀ p ∈ features', (∃ f ∈ features, p = .whole f) ∨ ∃ f ∈ features, ∃ i, p = .slice f i ∧ i < f.names.length ∧ ∃ n ∈ f.names, n ∉ t'.cols

theorem selects_of {t : Table} {features : List SelFeat} {keeps : String → Prop} {q : String → Bool} (hq : ∀ c ∈ t.cols, q c = true ↔ keeps c) :
    Selects t features keeps (applySelection t features (t.cols.filter q)).1 (applySelection t features (t.cols.filter q)).2 := by
  refine ⟨rfl, List.filter_sublist, ?_, ?_, ?_, fun p hp => apply_from hp⟩
  · intro c
    show c ∈ t.cols.filter q ↔ _
    rw [List.mem_filter]
    exact and_congr_right (hq c)
  · intro hf
    rw [apply_names hf]
    refine ⟨List.filter_sublist, fun n => ?_⟩
    rw [List.mem_filter, List.contains_iff_mem]
    rfl
  · intro hf he
    rw [apply_names hf, he]
    show _ = t.cols.filter q
    apply List.filter_congr
    intro c hc
    rw [Bool.eq_iff_iff, List.contains_iff_mem, List.mem_filter]
    exact ⟨fun h => h.2, fun h => ⟨hc, h⟩⟩

/-- C51: `remove_low_information_features` keeps exactly the columns with a value in which two rows differ, and the features with one
of their names. -/
theorem C51_low_information_partial (t : Table) (features : List SelFeat) :
    (removeLowInformation t features).1.rows = t.rows ∧ (removeLowInformation t features).1.cols.Sublist t.cols ∧
    (∀ c, c ∈ (removeLowInformation t features).1.cols ↔ c ∈ t.cols ∧ Varies t c ∧ HasValue t c) ∧
    (removeLowInformation t features).2.Sublist features ∧
    ∀ f, f ∈ (removeLowInformation t features).2 ↔ f ∈ features ∧ f.name ∈ (removeLowInformation t features).1.cols := by
  refine ⟨rfl, List.filter_sublist, ?_, List.filter_sublist, ?_⟩
  · intro c
    show c ∈ t.cols.filter _ ↔ _
    rw [List.mem_filter, Bool.and_eq_true, decide_eq_true_eq, decide_eq_true_eq, varies_iff, hasValue_iff]
  · intro f
    show f ∈ features.filter _ ↔ _
    rw [List.mem_filter, List.contains_iff_mem]
    rfl

/-- C51: `remove_highly_null_features` keeps exactly the columns in which the share of missing values is below the threshold, or nil for
the threshold 0. -/
theorem C51_highly_null_partial (t : Table) (features : List SelFeat) (threshold : Rat) :
    if 0 ≤ threshold ∧ threshold ≤ 1 then
      ∃ t' fs', removeHighlyNull t features threshold = .ok (t', fs') ∧
        Selects t features (fun c => t.rows ≠ [] ∧ if threshold = 0 then nulls t c = 0 else (nulls t c : Rat) < threshold * t.rows.length) t' fs'
    else removeHighlyNull t features threshold = .error .valueError := by
  unfold removeHighlyNull
  by_cases h : 0 ≤ threshold ∧ threshold ≤ 1
  · rw [if_pos h, if_neg (by grind)]
    exact ⟨_, _, rfl, selects_of fun c _ => fewNulls_iff t c threshold⟩
  · rw [if_neg h, if_pos (by grind)]

/-- C51: `remove_single_value_features` keeps exactly the columns with two different values; with `count_nan_as_value`, a missing
value counts. -/
theorem C51_single_value (t : Table) (features : List SelFeat) (countNan : Bool) :
    Selects t features (fun c => if countNan then Varies t c else HasTwoValues t c)
      (removeSingleValue t features countNan).1 (removeSingleValue t features countNan).2 := by
  refine selects_of fun c _ => ?_
  rw [decide_eq_true_eq]
  cases countNan
  · exact hasTwo_iff t c
  · exact varies_iff t c

/-- C52: `remove_highly_correlated_features` drops exactly the checked numeric columns that are not protected and are correlated with a
numeric column checked before. -/
theorem C52_correlated (S : Stats) (t : Table) (features : List SelFeat) (threshold : Rat) (check : Option (List String)) (protect : List String) :
    if ¬(0 ≤ threshold ∧ threshold ≤ 1) then removeHighlyCorrelated S t features threshold check protect = .error .valueError
    else if ∃ c ∈ check.getD t.cols, c ∉ t.cols then removeHighlyCorrelated S t features threshold check protect = .error .assertionError
    else ∃ t' fs', removeHighlyCorrelated S t features threshold check protect = .ok (t', fs') ∧
      Selects t features (fun c => c ∈ protect ∨ ¬∃ d, Before ((check.getD t.cols).filter S.numeric) d c ∧ Correlated S t threshold c d) t' fs' := by
  unfold removeHighlyCorrelated
  by_cases h : 0 ≤ threshold ∧ threshold ≤ 1
  · have h1 : ¬(threshold < 0 ∨ threshold > 1) := by grind
    rw [if_neg (Classical.not_not.mpr h)]
    simp only [if_neg h1]
    by_cases hc : ∃ c ∈ check.getD t.cols, c ∉ t.cols
    · rw [if_pos hc, if_pos]
      obtain ⟨c, hc1, hc2⟩ := hc
      simp only [Bool.not_eq_true', List.all_eq_false]
      exact ⟨c, hc1, by simpa using hc2⟩
    · rw [if_neg hc, if_neg]
      · refine ⟨_, _, rfl, selects_of fun c _ => ?_⟩
        rw [Bool.or_eq_true, List.contains_iff_mem, Bool.not_eq_true', ← Bool.not_eq_true, List.contains_iff_mem, mem_dropped]
        simp only [highCorr_iff S t h.1]
      · simp only [Bool.not_eq_true', Bool.not_eq_false, List.all_eq_true, List.contains_iff_mem]
        intro c hc1
        exact Classical.byContradiction fun hc2 => hc ⟨c, hc1, hc2⟩
  · rw [if_pos h, if_pos (by grind)]

/-- C52: in the result no two checked numeric columns are correlated unless the later one is protected; protected columns stay, and so
do columns that were not checked. -/
theorem C52_result (S : Stats) (t t' : Table) (features : List SelFeat) (fs' : List Picked) (threshold : Rat) (check : Option (List String)) (protect : List String)
    (h : removeHighlyCorrelated S t features threshold check protect = .ok (t', fs')) :
    (∀ d c, Before ((check.getD t.cols).filter S.numeric) d c → d ∈ t'.cols → c ∈ t'.cols → c ∉ protect → ¬Correlated S t threshold c d) ∧
    (∀ c ∈ t.cols, c ∈ protect → c ∈ t'.cols) ∧ (∀ c ∈ t.cols, c ∉ check.getD t.cols → c ∈ t'.cols) ∧
    ∀ c ∈ t.cols, c ∉ t'.cols → ∃ d ∈ check.getD t.cols, Correlated S t threshold c d := by
  have h0 := C52_correlated S t features threshold check protect
  split at h0
  · rw [h] at h0; cases h0
  · split at h0
    · rw [h] at h0; cases h0
    · obtain ⟨t1, fs1, he, hs⟩ := h0
      rw [h] at he
      cases he
      obtain ⟨_, _, hk, _⟩ := hs
      refine ⟨?_, fun c hc hp => (hk c).mpr ⟨hc, .inl hp⟩, ?_, ?_⟩
      · intro d c hb _ hc hp hcor
        rcases ((hk c).mp hc).2 with hp' | hn
        · exact hp hp'
        · exact hn ⟨d, hb, hcor⟩
      · intro c hc hn
        refine (hk c).mpr ⟨hc, .inr ?_⟩
        rintro ⟨d, ⟨i, j, _, _, hj⟩, _⟩
        exact hn (List.mem_filter.mp (List.mem_of_getElem? hj)).1
      · intro c hc hn
        rw [hk] at hn
        simp only [hc, true_and, not_or, Classical.not_not] at hn
        obtain ⟨_, d, ⟨i, j, _, hi, _⟩, hcor⟩ := hn
        exact ⟨d, (List.mem_filter.mp (List.mem_of_getElem? hi)).1, hcor⟩

namespace SelectionExample
def t : Table := ⟨["a", "b", "c"], [Row.ofList [("a", .num 1), ("b", .num 5)], Row.ofList [("a", .num 2), ("b", .num 5)], Row.ofList [("a", .num 3)],
  Row.ofList [("a", .num 3), ("b", .num 5)]]⟩
def fs : List SelFeat := [⟨"a", ["a"]⟩, ⟨"m", ["b", "c"]⟩]
/-- Correlation 1 of a column with itself and its copies, otherwise 0. -/
def stats : Stats := ⟨fun _ => true, fun x y => some (if x = y then 1 else 0)⟩
def twins : Table := ⟨["a", "b", "c"], [Row.ofList [("a", .num 1), ("b", .num 1), ("c", .num 2)], Row.ofList [("a", .num 2), ("b", .num 2), ("c", .num 1)]]⟩
/-- The features are sound and agree with the matrix; something is kept and something removed. -/
example : (∀ f ∈ fs, Sound f) ∧ fs.flatMap SelFeat.names = t.cols ∧ (removeSingleValue t fs true).1.cols = ["a", "b"] ∧
    (removeSingleValue t fs true).2 = [.whole ⟨"a", ["a"]⟩, .slice ⟨"m", ["b", "c"]⟩ 0] := by
  refine ⟨?_, by decide, by decide, by decide⟩
  intro f hf
  simp only [fs, List.mem_cons, List.not_mem_nil, or_false] at hf
  rcases hf with rfl | rfl <;> exact ⟨by simp, by simp⟩
example : ((removeHighlyNull t fs (1/2)).toOption.map fun r => r.1.cols) = some ["a", "b"] := by decide +kernel
example : ((removeHighlyCorrelated stats twins [] (1/2) none []).toOption.map fun r => r.1.cols) = some ["a", "c"] := by decide +kernel
example : ((removeHighlyCorrelated stats twins [] (1/2) none ["b"]).toOption.map fun r => r.1.cols) = some ["a", "b", "c"] := by decide +kernel
end SelectionExample
open SelectionExample

/-- C51: a column whose share of missing values is exactly the threshold is removed, although it does not exceed the threshold. -/
theorem C51_boundary_violated :
    ∃ (t : Table) (threshold : Rat), 0 ≤ threshold ∧ threshold ≤ 1 ∧ "b" ∈ t.cols ∧ ¬((nulls t "b" : Rat) / t.rows.length > threshold) ∧
      ((removeHighlyNull t [] threshold).toOption.map fun r => r.1.cols) = some ["a"] :=
  ⟨⟨["a", "b"], [Row.ofList [("a", .num 1), ("b", .num 5)], Row.ofList [("a", .num 2)]]⟩, 1/2, by decide +kernel, by decide +kernel, by decide, by decide +kernel, by decide +kernel⟩

/-- C51: `remove_low_information_features` drops a feature with several outputs, although all its columns stay. -/
theorem C51_outputs_violated :
    ∃ (t : Table) (fs : List SelFeat), (∀ f ∈ fs, Sound f) ∧ fs.flatMap SelFeat.names = t.cols ∧ (removeLowInformation t fs).1.cols = t.cols ∧
      t.cols ≠ [] ∧ (removeLowInformation t fs).2 = [] :=
  ⟨⟨["b", "c"], [Row.ofList [("b", .num 1), ("c", .num 5)], Row.ofList [("b", .num 2)]]⟩, [⟨"m", ["b", "c"]⟩],
    by simp [Sound], by decide, by decide, by decide, by decide⟩

/-- C52: with `features_to_check` in another order than the matrix, it is the column further left that is dropped. -/
theorem C52_order_violated :
    twins.cols = ["a", "b", "c"] ∧ ((removeHighlyCorrelated stats twins [] (1/2) (some ["b", "a"]) []).toOption.map fun r => r.1.cols) = some ["b", "c"] := by
  decide +kernel

end FT
