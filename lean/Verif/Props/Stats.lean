import Verif.Lemmas.Stats
import Mathlib.Tactic.NormNum
/-! # C68: Numeric aggregation primitives are the statistics they are named after -/
namespace FT
open Spec

theorem dropna_eq_filter (s : List Val) : dropna s = s.filter fun v => v ≠ .null := by
  rfl

/-- Count counts the cells that are not missing: with the missing ones they are all cells. -/
theorem C68_count {α : Type} (s : List (Option α)) : countPd s + (s.filter Option.isNone).length = s.length := by
  unfold countPd
  induction s with
  | nil => rfl
  | cons v s ih => cases v <;> simp at ih ⊢ <;> omega

example : countPd [some (3 : Rat), none, some 4] = 2 := by rfl

/-- Sum adds up the cells, a missing one for nothing, and is zero for no cells. -/
theorem C68_sum : sumPd [] = 0 ∧ ∀ (v : Option Rat) (s : List (Option Rat)), sumPd (v :: s) = v.getD 0 + sumPd s := by
  refine ⟨rfl, fun v s => ?_⟩
  cases v <;> simp [sumPd]

example : sumPd [some 3, none, some 4] = 7 := by decide +kernel

/-- Mean is the mean of the cells that are there; if missing cells are not to be skipped, there must be none. -/
theorem C68_mean (s : List (Option Rat)) (m : Rat) :
    (meanPd true s = some m ↔ IsMean (present s) m) ∧
    (meanPd false s = some m ↔ none ∉ s ∧ IsMean (present s) m) := by
  refine ⟨?_, ?_⟩
  · unfold meanPd
    rw [if_pos rfl]
    exact meanOf_iff _ _
  · unfold meanPd
    rw [if_neg (by decide)]
    by_cases h : s.any Option.isNone = true
    · rw [if_pos h]
      have : none ∈ s := by
        rw [List.any_eq_true] at h
        obtain ⟨x, hx, hn⟩ := h
        cases x with
        | none => exact hx
        | some _ => simp at hn
      simp [this]
    · rw [if_neg h]
      have : none ∉ s := by
        intro hn
        exact h (List.any_eq_true.mpr ⟨none, hn, rfl⟩)
      simp only [this, not_false_eq_true, true_and]
      exact meanOf_iff _ _

/-- There is a mean exactly if a cell is there. -/
theorem C68_mean_none (s : List (Option Rat)) : meanPd true s = none ↔ ∀ v ∈ s, v = none := by
  unfold meanPd meanOf
  rw [if_pos rfl]
  by_cases h : (s.filterMap id).isEmpty = true
  · rw [if_pos h]
    simp only [true_iff]
    intro v hv
    rw [List.isEmpty_iff, List.filterMap_eq_nil_iff] at h
    exact h v hv
  · rw [if_neg h]
    simp only [reduceCtorEq, false_iff]
    intro hall
    apply h
    rw [List.isEmpty_iff, List.filterMap_eq_nil_iff]
    exact hall

example : meanPd true [some 3, none, some 4] = some (7 / 2) ∧ meanPd false [some 3, none, some 4] = none := by decide +kernel

/-- Mean(skipna=False) is not the same statistic with Dask and Koalas: a missing cell is skipped there. -/
theorem C68_mean_skipna_violated : ∃ s, meanPd false s ≠ meanDask false s :=
  ⟨[some 3, none, some 4], by decide +kernel⟩

/-- Without missing cells, and with skipna=True, the backends agree on Mean. -/
theorem C68_mean_backends_partial (skipna : Bool) (s : List (Option Rat)) (h : skipna = true ∨ none ∉ s) :
    meanDask skipna s = meanPd skipna s := by
  unfold meanDask meanPd
  cases skipna with
  | true => rfl
  | false =>
    have hn : none ∉ s := by simpa using h
    rw [if_neg (by decide), if_neg]
    intro ha
    rw [List.any_eq_true] at ha
    obtain ⟨x, hx, hx'⟩ := ha
    cases x with
    | none => exact hn hx
    | some _ => simp at hx'

example : meanDask false [some 3, some 5] = some 4 := by decide +kernel

/-- Min is the least and Max the greatest of the cells that are there. -/
theorem C68_min_max (s : List (Option Rat)) (m : Rat) :
    (minPd s = some m ↔ some m ∈ s ∧ ∀ x, some x ∈ s → m ≤ x) ∧
    (maxPd s = some m ↔ some m ∈ s ∧ ∀ x, some x ∈ s → x ≤ m) := by
  have hmem : ∀ x, some x ∈ s ↔ x ∈ s.filterMap id := by
    intro x
    simp
  simp only [hmem]
  unfold minPd maxPd
  generalize s.filterMap id = l
  cases l with
  | nil => simp
  | cons a l =>
    have h1 := foldl_min l a
    have h2 := foldl_max l a
    simp only
    constructor
    · constructor
      · intro h
        have h := Option.some.inj h
        rw [← h]
        exact h1
      · rintro ⟨hm, hle⟩
        congr 1
        exact le_antisymm (h1.2 _ hm) (hle _ h1.1)
    · constructor
      · intro h
        have h := Option.some.inj h
        rw [← h]
        exact h2
      · rintro ⟨hm, hle⟩
        congr 1
        exact le_antisymm (hle _ h2.1) (h2.2 _ hm)

example : minPd [some 3, none, some (-4)] = some (-4) ∧ maxPd [some 3, none, some (-4)] = some 3 := by decide +kernel

/-- Median is the middle of the cells that are there, in order. -/
theorem C68_median (s : List (Option Rat)) (m : Rat) : medianPd s = some m ↔ IsMedian (present s) m := medianPd_iff s m

/-- At least half of the cells are at most the median, at least half are at least the median, and no number is closer to the cells
in total. -/
theorem C68_median_best (s : List (Option Rat)) (m : Rat) (h : medianPd s = some m) :
    (present s).length ≤ 2 * ((present s).filter fun x => x ≤ m).length ∧
    (present s).length ≤ 2 * ((present s).filter fun x => m ≤ x).length ∧
    ∀ c, ((present s).map fun x => |x - m|).sum ≤ ((present s).map fun x => |x - c|).sum := by
  have hm := (medianPd_iff s m).mp h
  obtain ⟨h1, h2⟩ := median_halves _ m hm
  refine ⟨h1, h2, fun c => ?_⟩
  obtain ⟨g1, g2⟩ := sum_abs_le (present s) m c
  unfold present at *
  generalize s.filterMap id = l at *
  rcases le_total m c with hc | hc
  · have := g1 hc
    have h1' : (l.length : Rat) ≤ 2 * ((l.filter fun x => x ≤ m).length : Rat) := by exact_mod_cast h1
    have : 0 ≤ (c - m) * (2 * ((l.filter fun x => x ≤ m).length : Rat) - (l.length : Rat)) :=
      mul_nonneg (by linarith) (by linarith)
    linarith
  · have := g2 hc
    have h1' : (l.length : Rat) ≤ 2 * ((l.filter fun x => m ≤ x).length : Rat) := by exact_mod_cast h2
    have : 0 ≤ (m - c) * (2 * ((l.filter fun x => m ≤ x).length : Rat) - (l.length : Rat)) :=
      mul_nonneg (by linarith) (by linarith)
    linarith

example : medianPd [some 3, none, some 10, some 4, some 1] = some (7 / 2) := by decide +kernel

/-- Std called directly divides by the number of the cells that are there; in a feature matrix it divides by one less. -/
theorem C68_std_partial (s : List (Option Rat)) (σ : ℝ) :
    (stdPd s = some σ ↔ present s ≠ [] ∧ IsDeviation (present s) (present s).length σ) ∧
    (stdGrouped s = some σ ↔ 2 ≤ (present s).length ∧ IsDeviation (present s) ((present s).length - 1) σ) := by
  refine ⟨?_, ?_⟩
  · unfold stdPd
    rw [stdWith_iff]
    unfold present
    rw [Nat.sub_zero, List.length_pos_iff]
  · unfold stdGrouped
    rw [stdWith_iff]
    rfl

theorem stdWith_deviation (ddof : Nat) (s : List (Option Rat)) (σ : ℝ) (h : stdWith ddof s = some σ) :
    IsDeviation (present s) ((present s).length - ddof) σ := ((stdWith_iff ddof s σ).mp h).2

theorem stdWith_some (ddof : Nat) (s : List (Option Rat)) (h : ddof < (present s).length) :
    stdWith ddof s = some (Real.sqrt ((squares (present s) / (((present s).length - ddof : Nat) : Rat) : Rat) : ℝ)) := by
  unfold stdWith
  exact if_neg (by unfold present at h; omega)

/-- Std is not one statistic: the function of the primitive and the feature matrix differ on the same cells. -/
theorem C68_std_violated : ∃ (s : List (Option Rat)) (σ τ : ℝ), stdPd s = some σ ∧ stdGrouped s = some τ ∧ σ < τ := by
  refine ⟨[some 1, some 3], _, _, stdWith_some 0 _ (by decide), stdWith_some 1 _ (by decide), ?_⟩
  apply Real.sqrt_lt_sqrt
  · exact Rat.cast_nonneg.mpr (by decide +kernel)
  · exact Rat.cast_lt.mpr (by decide +kernel)

/-- The two differ on all cells that are not all equal: the feature matrix always has the larger one. -/
theorem C68_std_order (s : List (Option Rat)) (σ τ : ℝ) (h : stdPd s = some σ) (h' : stdGrouped s = some τ) :
    σ ≤ τ ∧ (σ = τ ↔ ∀ x ∈ present s, ∀ y ∈ present s, x = y) := by
  obtain ⟨hne, h0, m, hm, e⟩ := ((C68_std_partial s σ).1).mp h
  obtain ⟨h2, h0', m', hm', e'⟩ := ((C68_std_partial s τ).2).mp h'
  have hz := squares_zero _ hne
  rw [← squares_cast _ m hm] at e
  rw [← squares_cast _ m' hm'] at e'
  generalize present s = l at *
  have e1 : (((l.length - 1 : Nat) : ℝ)) = (l.length : ℝ) - 1 := by
    rw [Nat.cast_sub (by omega)]; norm_num
  rw [e1] at e'
  have hn : (2 : ℝ) ≤ (l.length : ℝ) := by exact_mod_cast h2
  rw [← hz]
  have hQ : (0 : ℝ) ≤ ((squares l : Rat) : ℝ) := by exact_mod_cast squares_nonneg l
  have hcast : squares l = 0 ↔ ((squares l : Rat) : ℝ) = 0 := by exact_mod_cast Iff.rfl
  rw [hcast]
  generalize ((squares l : Rat) : ℝ) = Q at *
  generalize (l.length : ℝ) = n at *
  have hle : σ ≤ τ := by
    apply le_of_sq_le_sq _ h0'
    nlinarith [sq_nonneg σ, sq_nonneg τ]
  refine ⟨hle, ?_, ?_⟩
  · rintro rfl
    nlinarith
  · rintro rfl
    have hs : σ ^ 2 = 0 := by
      rcases mul_eq_zero.mp e with h | h
      · linarith
      · exact h
    have ht : τ ^ 2 = 0 := by
      rcases mul_eq_zero.mp e' with h | h
      · linarith
      · exact h
    rw [pow_eq_zero_iff two_ne_zero |>.mp hs, pow_eq_zero_iff two_ne_zero |>.mp ht]

example : ∃ σ τ : ℝ, stdPd [some 1, none, some 3] = some σ ∧ stdGrouped [some 1, none, some 3] = some τ :=
  ⟨_, _, stdWith_some 0 _ (by decide), stdWith_some 1 _ (by decide)⟩

/-- Skew is the adjusted skewness of the cells that are there, zero if they are all equal and nothing for fewer than three. -/
theorem C68_skew (s : List (Option Rat)) (g : ℝ) : skewPd s = some g ↔ IsSkewness (present s) g := skewPd_iff s g

/-- There is a skewness exactly if three cells are there. -/
theorem C68_skew_none (s : List (Option Rat)) : skewPd s = none ↔ (present s).length < 3 := by
  unfold skewPd present
  simp only
  by_cases h : (s.filterMap id).length < 3
  · rw [if_pos h]
    exact ⟨fun _ => h, fun _ => rfl⟩
  · rw [if_neg h]
    simp only [h, iff_false]
    split <;> simp

example : ∃ g, skewPd [some 1, none, some 3, some 8] = some g := by
  cases h : skewPd [some 1, none, some 3, some 8] with
  | some g => exact ⟨g, rfl⟩
  | none => exact absurd ((C68_skew_none _).mp h) (by decide)

/-- Entropy is Shannon's entropy of the shares of the values, in natural units or in those of the base. Missing cells are one of the
values unless they are to be dropped. -/
theorem C68_entropy (drop : Bool) (s vs : List Val) (hn : vs.Nodup) :
    (drop = false → (∀ v, v ∈ vs ↔ v ∈ s) → entropyPd drop none s = entropy s vs) ∧
    (drop = true → (∀ v, v ∈ vs ↔ v ∈ s ∧ v ≠ .null) → entropyPd drop none s = entropy (s.filter fun v => v ≠ .null) vs) ∧
    (∀ b, entropyPd drop (some b) s = entropyPd drop none s / Real.log (b : ℝ)) := by
  refine ⟨?_, ?_, fun b => rfl⟩
  · rintro rfl hv
    exact entropyPd_eq false s vs hn (by simpa using hv)
  · rintro rfl hv
    rw [← dropna_eq_filter]
    refine entropyPd_eq true s vs hn ?_
    intro v
    rw [hv v, if_pos rfl, dropna_eq_filter]
    simp

/-- Entropy lies between zero, for a single value only, and the logarithm of the number of values, for equal shares only. -/
theorem C68_entropy_bounds (s vs : List Val) (hs : s ≠ []) (hn : vs.Nodup) (hv : ∀ v, v ∈ vs ↔ v ∈ s) :
    0 ≤ entropyPd false none s ∧ entropyPd false none s ≤ Real.log (vs.length : ℝ) ∧
    (entropyPd false none s = 0 ↔ vs.length = 1) ∧
    (entropyPd false none s = Real.log (vs.length : ℝ) ↔ ∀ v ∈ s, ∀ w ∈ s, s.count v = s.count w) := by
  rw [entropyPd_eq false s vs hn (by simpa using hv)]
  rw [if_neg (by decide)]
  have hsum := sum_share s vs hs hn fun v h => (hv v).mpr h
  have hpos : ∀ v ∈ vs, 0 < portion s v ∧ portion s v ≤ 1 := fun v h => share_pos s v ((hv v).mp h)
  have hvs : vs ≠ [] := by
    rintro rfl
    simp at hsum
  have hk : (0 : ℝ) < (vs.length : ℝ) := by exact_mod_cast List.length_pos_iff.mpr hvs
  have hslen : (0 : ℝ) < (s.length : ℝ) := by exact_mod_cast List.length_pos_iff.mpr hs
  have hterm : ∀ v ∈ vs, 0 ≤ - (portion s v * Real.log (portion s v)) := by
    intro v hv
    obtain ⟨h1, h2⟩ := hpos v hv
    have := Real.log_nonpos h1.le h2
    nlinarith
  have ⟨hup, heq⟩ := sum_terms (vs.map fun v => portion s v) (vs.length : ℝ) hk (by
    intro p hp
    obtain ⟨v, hv, rfl⟩ := List.mem_map.mp hp
    exact (hpos v hv).1)
  rw [List.map_map, List.length_map, hsum, div_self hk.ne'] at hup heq
  have hE : entropy s vs = (vs.map ((fun p => - (p * Real.log p)) ∘ fun v => portion s v)).sum := rfl
  rw [← hE] at hup heq
  refine ⟨?_, by linarith, ⟨?_, ?_⟩, ?_, ?_⟩
  · apply List.sum_nonneg
    intro x hx
    obtain ⟨v, hv, rfl⟩ := List.mem_map.mp hx
    exact hterm v hv
  · intro h0
    have hall : ∀ v ∈ vs, portion s v = 1 := by
      intro v hv
      have hle : - (portion s v * Real.log (portion s v)) ≤ entropy s vs :=
        List.single_le_sum (by
          intro x hx
          obtain ⟨w, hw, rfl⟩ := List.mem_map.mp hx
          exact hterm w hw) _ (List.mem_map.mpr ⟨v, hv, rfl⟩)
      have h1 := hterm v hv
      have : portion s v * Real.log (portion s v) = 0 := by linarith
      rcases mul_eq_zero.mp this with h | h
      · exact absurd h (hpos v hv).1.ne'
      · exact Real.eq_one_of_pos_of_log_eq_zero (hpos v hv).1 h
    have hsum' : (vs.map fun v => portion s v).sum = (vs.length : ℝ) := by
      rw [List.map_congr_left hall]
      simp
    rw [hsum] at hsum'
    exact_mod_cast hsum'.symm
  · intro h1
    obtain ⟨v, rfl⟩ := List.length_eq_one_iff.mp h1
    simp at hsum
    simp [entropy, hsum]
  · intro h
    have hall := heq (by rw [h]; ring)
    intro v hv' w hw'
    have e1 := hall _ (List.mem_map.mpr ⟨v, (hv v).mpr hv', rfl⟩)
    have e2 := hall _ (List.mem_map.mpr ⟨w, (hv w).mpr hw', rfl⟩)
    have e := e1.trans e2.symm
    unfold portion at e
    have := (div_left_inj' hslen.ne').mp e
    exact_mod_cast this
  · intro h
    obtain ⟨v0, hv0⟩ := List.exists_mem_of_ne_nil vs hvs
    have hshare : ∀ v ∈ vs, portion s v = portion s v0 := by
      intro v hv'
      unfold portion
      rw [h v ((hv v).mp hv') v0 ((hv v0).mp hv0)]
    rw [List.map_congr_left hshare] at hsum
    simp at hsum
    have e : portion s v0 = (vs.length : ℝ)⁻¹ := by
      field_simp
      linarith
    unfold entropy
    rw [List.map_congr_left (g := fun _ => - (portion s v0 * Real.log (portion s v0))) (fun v hv' => by rw [hshare v hv'])]
    simp
    rw [e, Real.log_inv]
    field_simp

example : (0 : ℝ) < entropyPd false none [.str "a", .str "b", .str "a"] := by
  have hv : ∀ v, v ∈ [Val.str "a", Val.str "b"] ↔ v ∈ [Val.str "a", .str "b", .str "a"] := by
    intro v
    simp
    constructor
    · rintro (h | h) <;> simp [h]
    · rintro (h | h | h) <;> simp [h]
  have h := C68_entropy_bounds [.str "a", .str "b", .str "a"] [.str "a", .str "b"] (by simp) (by decide) hv
  exact lt_of_le_of_ne h.1 fun e => absurd (h.2.2.1.mp e.symm) (by decide)

end FT
