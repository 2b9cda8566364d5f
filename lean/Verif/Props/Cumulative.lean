import Verif.Lemmas.Cumulative
/-!
# C53: cumulative primitives
-/
namespace FT

/-- C53: at every position that has a value, `CumSum` is the sum of the values seen so far; elsewhere it is missing. -/
theorem C53_cum_sum (values : List (Option Rat)) : Spec.Running (fun _ seen y => y = seen.sum) values (cumSum values) := by
  refine runFrom_running _ (fun seen y => y = seen.sum) (by simp [Rat.add_zero]) ?_ values
  intro l a x h
  simp [h, List.sum_append, Rat.add_zero]

/-- C53: `CumCount` counts every position, with a value or not. -/
theorem C53_cum_count {α : Type} (values : List α) :
    (cumCount values).length = values.length ∧ ∀ i : Nat, i < values.length → (cumCount values)[i]? = some ((i : Rat) + 1) := by
  refine ⟨by simp [cumCount, arangeFrom1], fun i hi => ?_⟩
  simp [cumCount, arangeFrom1, hi]

/-- C53: at every position that has a value, `CumMean` is the sum of the values seen so far divided by the number of
positions seen so far, missing ones included. -/
theorem C53_cum_mean (values : List (Option Rat)) :
    Spec.Running (fun i seen y => y = seen.sum / ((i : Rat) + 1)) values (cumMean values) := by
  obtain ⟨hl, h⟩ := C53_cum_sum values
  refine ⟨by simp [cumMean, arangeFrom1, hl], fun i => ⟨fun hn => ?_, fun x hx => ?_⟩⟩
  · have hi : i < values.length := (List.getElem?_eq_some_iff.mp hn).1
    simp [cumMean, List.getElem?_zipWith, (h i).1 hn, arangeFrom1, hi]
  · have hi : i < values.length := (List.getElem?_eq_some_iff.mp hx).1
    obtain ⟨y, hy, he⟩ := (h i).2 x hx
    refine ⟨y / ((i : Rat) + 1), ?_, by rw [he]⟩
    simp [cumMean, List.getElem?_zipWith, hy, arangeFrom1, hi]

/-- C53: at every position that has a value, `CumMin` is the smallest of the values seen so far. -/
theorem C53_cum_min (values : List (Option Rat)) : Spec.Running (fun _ seen y => Spec.Smallest seen y) values (cumMin values) := by
  refine runFrom_running _ Spec.Smallest (fun x => ⟨by simp, by simp [Rat.le_refl]⟩) ?_ values
  rintro l a x ⟨hm, hl⟩
  by_cases hx : x < a
  · simp only [if_pos hx]
    exact ⟨by simp, fun y hy => by rcases List.mem_append.mp hy with hy | hy <;> grind [hl y]⟩
  · simp only [if_neg hx]
    exact ⟨by simp [hm], fun y hy => by rcases List.mem_append.mp hy with hy | hy <;> grind [hl y]⟩

/-- C53: at every position that has a value, `CumMax` is the largest of the values seen so far. -/
theorem C53_cum_max (values : List (Option Rat)) : Spec.Running (fun _ seen y => Spec.Largest seen y) values (cumMax values) := by
  refine runFrom_running _ Spec.Largest (fun x => ⟨by simp, by simp [Rat.le_refl]⟩) ?_ values
  rintro l a x ⟨hm, hl⟩
  by_cases hx : a < x
  · simp only [if_pos hx]
    exact ⟨by simp, fun y hy => by rcases List.mem_append.mp hy with hy | hy <;> grind [hl y]⟩
  · simp only [if_neg hx]
    exact ⟨by simp [hm], fun y hy => by rcases List.mem_append.mp hy with hy | hy <;> grind [hl y]⟩

/-- C53: `Diff` is missing at the first position, and later the difference to the value one position before; it is missing
when one of the two is. -/
theorem C53_diff (values : List (Option Rat)) :
    (diffSeries values).length = values.length ∧
    (∀ v, values[0]? = some v → (diffSeries values)[0]? = some none) ∧
    ∀ (i : Nat) (v w : Option Rat), values[i]? = some v → values[i + 1]? = some w →
      (∀ x y, v = some x → w = some y → (diffSeries values)[i + 1]? = some (some (y - x))) ∧
      (v = none ∨ w = none → (diffSeries values)[i + 1]? = some none) := by
  refine ⟨diffSeries_length _, fun v hv => ?_, fun i v w hv hw => ?_⟩
  · cases values with
    | nil => simp at hv
    | cons a l => exact diffSeries_zero a l
  · rw [diffSeries_get, hv, hw]
    refine ⟨fun x y hx hy => by simp [hx, hy, minusNan], fun h => ?_⟩
    rcases h with rfl | rfl
    · cases w <;> simp [minusNan]
    · simp [minusNan]

/-- C53: on complete data, `Diff` after `CumSum` gives the values back from the second on, and `CumSum` after `Diff` the
values less the first one. -/
theorem C53_inverse (xs : List Rat) (i : Nat) (x : Rat) (hx : xs[i + 1]? = some x) :
    (diffSeries (cumSum (xs.map some)))[i + 1]? = some (some x) ∧
    ∃ first, xs[0]? = some first ∧ (cumSum (diffSeries (xs.map some)))[i + 1]? = some (some (x - first)) := by
  have hi : i + 1 < xs.length := (List.getElem?_eq_some_iff.mp hx).1
  have hsum : ∀ k, k < xs.length → (cumSum (xs.map some))[k]? = some (some ((xs.take (k + 1)).sum)) := by
    intro k hk
    obtain ⟨y, hy, he⟩ := ((C53_cum_sum (xs.map some)).2 k).2 xs[k] (by simp [hk])
    rw [hy, he]
    simp [Spec.upTo, ← List.map_take, List.filterMap_map]
  constructor
  · rw [diffSeries_get, hsum i (by omega), hsum (i + 1) hi]
    have : xs.take (i + 1 + 1) = xs.take (i + 1) ++ [x] := by
      rw [List.take_add_one, hx]; rfl
    simp only [Option.bind_some, Option.map_some, minusNan, this, List.sum_append]
    simp only [List.sum_cons, List.sum_nil, Rat.add_zero, Option.some.injEq]
    grind
  · cases xs with
    | nil => simp at hx
    | cons first xs =>
      refine ⟨first, rfl, ?_⟩
      have key : ∀ (l : List Rat) (p c : Rat) (k : Nat) (z : Rat), l[k]? = some z →
          (runFrom (fun a x => a + x) (some c) (List.zipWith minusNan (l.map some) (some p :: l.map some)))[k]?
            = some (some (c + (z - p))) := by
        intro l
        induction l with
        | nil => intro p c k z h; simp at h
        | cons u l ih =>
          intro p c k z h
          cases k with
          | zero => simp at h; simp [runFrom, minusNan, h]
          | succ k =>
            have := ih u (c + (u - p)) k z (by simpa using h)
            simp only [List.map_cons, List.zipWith_cons_cons, minusNan, Option.map_some, Option.bind_some, runFrom,
              List.getElem?_cons_succ]
            rw [this]
            simp only [Option.some.injEq]; grind
      cases xs with
      | nil => simp at hx
      | cons second xs =>
        simp only [cumSum, diffSeries, List.map_cons, List.zipWith_cons_cons, minusNan, Option.map_none, Option.bind_some,
          Option.map_some, runFrom, List.getElem?_cons_succ]
        cases i with
        | zero => simp at hx; simp [hx]
        | succ i =>
          have := key xs second (second - first) i x (by simpa using hx)
          rw [List.getElem?_cons_succ, this]
          simp only [Option.some.injEq]; grind

example : cumSum [some 1, some 2, none, some 5] = [some 1, some 3, none, some 8] := by decide +kernel
example : cumMean [some 1, none, some 5] = [some 1, none, some 2] := by decide +kernel
example : cumMin [some 1, some (-3), none, some 5] = [some 1, some (-3), none, some (-3)] := by decide +kernel
example : cumMax [none, some 1, some (-3), some 5] = [none, some 1, some 1, some 5] := by decide +kernel
example : diffSeries [some 1, some 10, none, some 4] = [none, some 9, none, none] := by decide +kernel
example : cumCount [some 1, none] = [1, 2] := by decide +kernel
example : ([3, 4, 6] : List Rat)[1 + 1]? = some 6 := rfl

end FT
