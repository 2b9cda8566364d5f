import Verif.Lemmas.Aggregate
/-!
# C54, C55: aggregation primitives
-/
namespace FT

/-! ### C54: Dask and pandas agree -/

/-- C54: for every way to split the rows of a group into partitions and to combine them, `NumUnique` on Dask gives what it
gives on pandas, the number of different values. -/
theorem C54_num_unique (ps : List (Parts Val)) (h : Parts.rowsL ps ≠ []) :
    numUniqueDask.run ps = numUniquePd (Parts.rowsL ps) ∧ Spec.NumDistinct (Parts.rowsL ps) (numUniqueDask.run ps) := by
  obtain ⟨b, ⟨hn, hm⟩, he⟩ := DaskAgg.run_spec numUniqueDask (fun r b => b.Nodup ∧ ∀ v, v ∈ b ↔ v ∈ r ∧ v ≠ .null)
    (fun r _ => ⟨nodup_dedup _, fun v => by simp only [numUniqueDask]; rw [mem_dedup, mem_dropna]⟩)
    (by
      intro r bs hp hr
      clear hr
      refine ⟨nodup_dedup _, fun v => ?_⟩
      simp only [numUniqueDask]
      rw [mem_dedup]
      induction hp with
      | nil => simp
      | cons _ hb _ ih => rw [List.flatten_cons, List.mem_append, List.mem_append, ih, hb.2]; grind) ps h
  have hl : b.length = numUniquePd (Parts.rowsL ps) := by
    apply List.Perm.length_eq
    rw [List.perm_ext_iff_of_nodup hn (nodup_dedup _)]
    intro v
    rw [hm, mem_dedup, mem_dropna]
  have he' : numUniqueDask.run ps = b.length := he
  exact ⟨by rw [he', hl], b, hn, hm, he'⟩

/-- C54: the same for `NumTrue`, the number of true values. -/
theorem C54_num_true (ps : List (Parts (Option Bool))) (h : Parts.rowsL ps ≠ []) :
    numTrueDask.run ps = numTruePd (Parts.rowsL ps) ∧ numTrueDask.run ps = (Parts.rowsL ps).count (some true) := by
  have := DaskAgg.run_eq numTrueDask (fun s => (s.filter fun v => v == some true).length) (fun _ => rfl)
    (sum_flatten_map_nat _ (by simp) (by simp)) ps h
  refine ⟨this, this.trans ?_⟩
  rw [List.count_eq_length_filter]; rfl

/-- C54: the same for `PercentTrue`, the share of true values among all rows. -/
theorem C54_percent_true (ps : List (Parts (Option Bool))) (h : Parts.rowsL ps ≠ []) :
    percentTruePd (Parts.rowsL ps) = some (percentTrueDask.run ps) ∧
    percentTrueDask.run ps = ((Parts.rowsL ps).count (some true) : Rat) / ((Parts.rowsL ps).length : Rat) := by
  have := DaskAgg.run_eq percentTrueDask (fun s => ((fillZero s).sum, s.length)) (fun _ => rfl)
    (by
      intro l
      have h1 := sum_flatten_map (fun s => (fillZero s).sum) (by simp [fillZero]) (by simp [fillZero, List.sum_append]) l
      have h2 := sum_flatten_map_nat (fun s : List (Option Bool) => s.length) (by simp) (by simp) l
      simp only [percentTrueDask, List.map_map, Function.comp_def, h1, h2]) ps h
  rw [this]
  simp only [percentTruePd, percentTrueDask]
  rw [if_neg (by simpa using h)]
  exact ⟨rfl, by rw [fillZero_sum]⟩

/-- C54: the same for `Any`: whether some row is true. -/
theorem C54_any (ps : List (Parts (Option Bool))) (h : Parts.rowsL ps ≠ []) :
    anyDask.run ps = anyPd (Parts.rowsL ps) ∧ (anyDask.run ps = true ↔ some true ∈ Parts.rowsL ps) := by
  have := DaskAgg.run_eq anyDask (fun s => s.any fun v => v == some true) (fun _ => rfl)
    (by
      intro l
      simp only [anyDask]
      rw [Bool.eq_iff_iff]
      simp) ps h
  refine ⟨this, ?_⟩
  rw [this]
  simp [anyDask]

/-- C54: the same for `All`: whether no row is false. -/
theorem C54_all (ps : List (Parts (Option Bool))) (h : Parts.rowsL ps ≠ []) :
    allDask.run ps = allPd (Parts.rowsL ps) ∧ (allDask.run ps = true ↔ some false ∉ Parts.rowsL ps) := by
  have := DaskAgg.run_eq allDask (fun s => s.all fun v => v != some false) (fun _ => rfl)
    (by
      intro l
      simp only [allDask]
      rw [List.all_map, List.all_flatten]
      rfl) ps h
  refine ⟨this, ?_⟩
  rw [this]
  simp only [allDask, List.all_eq_true]
  grind

/-! ### C55: definitions -/

/-- C55: `NumUnique` is the number of different values; missing values do not count. -/
theorem C55_num_unique (s : List Val) : Spec.NumDistinct s (numUniquePd s) :=
  ⟨_, nodup_dedup _, fun v => by rw [mem_dedup, mem_dropna], rfl⟩

/-- C55: `NumTrue`, `Any` and `All` ignore missing values. -/
theorem C55_booleans (s : List (Option Bool)) :
    numTruePd s = s.count (some true) ∧ (anyPd s = true ↔ some true ∈ s) ∧ (allPd s = true ↔ some false ∉ s) := by
  refine ⟨?_, by simp [anyPd], ?_⟩
  · rw [List.count_eq_length_filter]; rfl
  · simp only [allPd, List.all_eq_true]; grind

/-- C55: `PercentTrue` is missing without rows; otherwise it is the share of true values among all rows. -/
theorem C55_percent_true (s : List (Option Bool)) :
    (s = [] → percentTruePd s = none) ∧ (s ≠ [] → percentTruePd s = some ((s.count (some true) : Rat) / (s.length : Rat))) := by
  refine ⟨fun h => by simp [h, percentTruePd], fun h => ?_⟩
  simp only [percentTruePd]
  rw [if_neg (by simpa using h), fillZero_sum]

/-- C55: `Mode` is missing when there are no values, otherwise the smallest of the most frequent values. -/
theorem C55_mode (le : Val → Val → Bool) (total : ∀ a b, le a b = true ∨ le b a = true)
    (trans : ∀ a b c, le a b = true → le b c = true → le a c = true) (s : List Val) :
    ((∀ v ∈ s, v = .null) → modePd le s = .null) ∧
    ((∃ v ∈ s, v ≠ .null) → Spec.MostFrequent s (modePd le s) ∧ ∀ w, Spec.MostFrequent s w → le (modePd le s) w = true) := by
  have hmem : ∀ v, v ∈ isort le ((dedup (dropna s)).filter fun v => (dropna s).all fun w => decide (s.count w ≤ s.count v)) ↔
      Spec.MostFrequent s v := by
    intro v
    rw [mem_isort, List.mem_filter, mem_dedup, mem_dropna]
    simp only [List.all_eq_true, decide_eq_true_eq, mem_dropna, Spec.MostFrequent]
    grind
  have hs := isort_sorted le total trans ((dedup (dropna s)).filter fun v => (dropna s).all fun w => decide (s.count w ≤ s.count v))
  unfold modePd
  generalize isort le ((dedup (dropna s)).filter fun v => (dropna s).all fun w => decide (s.count w ≤ s.count v)) = l at *
  constructor
  · intro h
    cases l with
    | nil => rfl
    | cons a l => have := (hmem a).mp (by simp); exact absurd (h a this.1) this.2.1
  · rintro ⟨v, hv, hn⟩
    have : ∃ m, Spec.MostFrequent s m := by
      clear hmem hs
      have : ∀ (l : List Val), (∃ v ∈ l, v ≠ .null) → ∃ m ∈ l, m ≠ .null ∧ ∀ w ∈ l, w ≠ .null → s.count w ≤ s.count m := by
        intro l
        induction l with
        | nil => simp
        | cons a l ih =>
          intro h
          by_cases h' : ∃ v ∈ l, v ≠ .null
          · obtain ⟨m, hm, hm', hmax⟩ := ih h'
            by_cases ha : a ≠ .null ∧ s.count m < s.count a
            · exact ⟨a, by simp, ha.1, fun w hw hw' => by
                rcases List.mem_cons.mp hw with rfl | hw
                · exact Nat.le_refl _
                · exact Nat.le_trans (hmax w hw hw') (Nat.le_of_lt ha.2)⟩
            · exact ⟨m, by simp [hm], hm', fun w hw hw' => by
                rcases List.mem_cons.mp hw with rfl | hw
                · exact Nat.le_of_not_lt fun hlt => ha ⟨hw', hlt⟩
                · exact hmax w hw hw'⟩
          · obtain ⟨v, hv, hv'⟩ := h
            rcases List.mem_cons.mp hv with rfl | hv
            · exact ⟨v, by simp, hv', fun w hw hw' => by
                rcases List.mem_cons.mp hw with rfl | hw
                · exact Nat.le_refl _
                · exact absurd ⟨w, hw, hw'⟩ h'⟩
            · exact absurd ⟨v, hv, hv'⟩ h'
      exact this s ⟨v, hv, hn⟩
    obtain ⟨m, hm⟩ := this
    cases l with
    | nil => exact absurd ((hmem m).mpr hm) (by simp)
    | cons a l =>
      refine ⟨(hmem a).mp (by simp), fun w hw => ?_⟩
      rcases List.mem_cons.mp ((hmem w).mpr hw) with rfl | hw'
      · exact (total w w).elim id id
      · exact (List.pairwise_cons.mp hs).1 w hw'

/-- C55: `NMostCommon` gives `n` cells: different values by descending frequency, none of those left out being more
frequent, and missing values only after all values are listed; whatever the order pandas has ties in. -/
theorem C55_n_most_common (ties : List Val → List Val) (hties : ∀ l, (ties l).Perm l) (n : Nat) (s : List Val) :
    ∃ vs, Spec.MostCommon s vs ∧ nMostCommonPd ties n s = vs ++ List.replicate (n - vs.length) .null ∧ vs.length ≤ n ∧
      (vs.length < n → ∀ v ∈ s, v ≠ .null → v ∈ vs) := by
  have hsort := isort_sorted (fun a b => decide (s.count b ≤ s.count a)) (by intro a b; simp; omega) (by intro a b c; simp; omega)
    (ties (dedup (dropna s)))
  have hperm : (valueCounts ties s).Perm (dedup (dropna s)) := (isort_perm _ _).trans (hties _)
  have hmem : ∀ v, v ∈ valueCounts ties s ↔ v ∈ s ∧ v ≠ .null := fun v => by rw [hperm.mem_iff, mem_dedup, mem_dropna]
  have hnd : (valueCounts ties s).Nodup := hperm.nodup_iff.mpr (nodup_dedup _)
  have hsort' : (valueCounts ties s).Pairwise fun a b => s.count b ≤ s.count a := hsort.imp (by intro a b h; simpa using h)
  refine ⟨(valueCounts ties s).take n, ⟨?_, ?_, ?_, ?_⟩, ?_, ?_, ?_⟩
  · exact hnd.sublist (List.take_sublist _ _)
  · exact fun v hv => (hmem v).mp (List.mem_of_mem_take hv)
  · exact hsort'.sublist (List.take_sublist _ _)
  · intro v hv w hw hw' hnot
    have h1 := (hmem w).mpr ⟨hw, hw'⟩
    rw [← List.take_append_drop n (valueCounts ties s)] at h1 hsort'
    rcases List.mem_append.mp h1 with h1 | h1
    · exact absurd h1 hnot
    · exact (List.pairwise_append.mp hsort').2.2 v hv w h1
  · unfold nMostCommonPd
    simp only []
    by_cases h : ((valueCounts ties s).take n).length < n
    · rw [if_pos h]
    · rw [if_neg h]
      have : n - ((valueCounts ties s).take n).length = 0 := by omega
      rw [this]; simp
  · simp only [List.length_take]; omega
  · intro h v hv hv'
    have h1 := (hmem v).mpr ⟨hv, hv'⟩
    simp only [List.length_take] at h
    rwa [List.take_of_length_le (by omega)]

/-- C55: `First` and `Last` give the first and last cell, missing or not, and raise `IndexError` without rows. -/
theorem C55_first_last {α : Type} (s : List α) :
    (∀ v, firstPd s = .ok v ↔ s[0]? = some v) ∧ (∀ v, lastPd s = .ok v ↔ s ≠ [] ∧ s[s.length - 1]? = some v) ∧
    (s = [] → firstPd s = .error .indexError ∧ lastPd s = .error .indexError) := by
  refine ⟨fun v => ?_, fun v => ?_, fun h => by simp [h, firstPd, lastPd]⟩
  · cases s <;> simp [firstPd]
  · rw [lastPd, List.getLast?_eq_getElem?]
    cases s with
    | nil => simp
    | cons a l =>
      have : (a :: l).length - 1 < (a :: l).length := by simp
      rw [List.getElem?_eq_getElem this]
      simp

/-- C59: a unit of time has the documented length, and there are no others. -/
theorem C59_convert_value (secs : Rat) (unit : String) :
    (∀ d, Spec.UnitSeconds unit d → convertTimeUnits secs unit = .ok (secs / d)) ∧
    ((¬∃ d, Spec.UnitSeconds unit d) → convertTimeUnits secs unit = .error .valueError) := by
  refine ⟨fun d hd => ?_, fun hd => ?_⟩
  · simp only [Spec.UnitSeconds, List.mem_cons, Prod.mk.injEq, List.not_mem_nil, or_false] at hd
    rcases hd with ⟨rfl, rfl⟩ | ⟨rfl, rfl⟩ | ⟨rfl, rfl⟩ | ⟨rfl, rfl⟩ | ⟨rfl, rfl⟩ | ⟨rfl, rfl⟩ | ⟨rfl, rfl⟩ | ⟨rfl, rfl⟩ <;> rfl
  · unfold convertTimeUnits
    split
    · rfl
    · rename_i v hv
      refine absurd ⟨v, ?_⟩ hd
      obtain ⟨l1, l2, hl, _⟩ := List.lookup_eq_some_iff.mp hv
      have : (unit, v) ∈ unitDivs := by rw [hl]; simp
      exact this

example : Spec.UnitSeconds "hours" 3600 := by simp [Spec.UnitSeconds]
example : ¬∃ d, Spec.UnitSeconds "hour" d := by simp [Spec.UnitSeconds]

/-- C55: `AvgTimeBetween` is missing with fewer than two times. Otherwise it is the average of the differences between
neighbours, when the times are put in order, converted to the unit; an unknown unit is an error. -/
theorem C55_avg_time_between (unit : String) (s : List (Option Int)) (sorted : List Int) (hp : sorted.Perm (s.filterMap id))
    (hs : sorted.Pairwise (· ≤ ·)) :
    (sorted.length < 2 → avgTimeBetween unit s = .ok none) ∧
    (2 ≤ sorted.length → ∀ d, Spec.UnitSeconds unit d → avgTimeBetween unit s =
      .ok (some (((Spec.gaps sorted).sum : Rat) / ((Spec.gaps sorted).length : Rat) / 1000000000 / d))) ∧
    (2 ≤ sorted.length → (¬∃ d, Spec.UnitSeconds unit d) → avgTimeBetween unit s = .error .valueError) := by
  unfold avgTimeBetween
  rw [hp.length_eq]
  generalize hx : s.filterMap id = x at hp
  match x with
  | [] => simp
  | [_] => simp
  | a :: b :: x =>
    have hlen := hp.length_eq
    obtain ⟨hmax, hmax'⟩ := maxInt_spec (b :: x) a
    obtain ⟨hmin, hmin'⟩ := minInt_spec (b :: x) a
    have hg : (Spec.gaps sorted).sum = maxInt a (b :: x) - minInt a (b :: x) := by
      cases hsd : sorted with
      | nil => rw [hsd] at hlen; simp at hlen
      | cons c l =>
        rw [hsd] at hs hp
        obtain ⟨z, hz⟩ : ∃ z, (c :: l).getLast? = some z := ⟨_, List.getLast?_eq_some_getLast (by simp)⟩
        rw [gaps_sum l c z hz]
        have hc : c = minInt a (b :: x) := by
          have h1 := hmin' c (hp.mem_iff.mp (by simp))
          have h2 : c ≤ minInt a (b :: x) := by
            rcases List.mem_cons.mp (hp.mem_iff.mpr hmin) with h | h
            · omega
            · exact (List.pairwise_cons.mp hs).1 _ h
          omega
        have hz' : z = maxInt a (b :: x) := by
          obtain ⟨init, hinit⟩ := List.getLast?_eq_some_iff.mp hz
          have h1 := hmax' z (hp.mem_iff.mp (by rw [hinit]; simp))
          have h2 : maxInt a (b :: x) ≤ z := by
            have := hp.mem_iff.mpr hmax
            rw [hinit] at this hs
            rcases List.mem_append.mp this with h | h
            · exact (List.pairwise_append.mp hs).2.2 _ h z (by simp)
            · simp at h; omega
          omega
        rw [hc, hz']
    refine ⟨fun h => absurd h (by simp), fun _ d hd => ?_, fun _ hd => ?_⟩
    · simp only []
      rw [(C59_convert_value _ unit).1 d hd, hg, gaps_length, hlen]
      rfl
    · simp only []
      rw [(C59_convert_value _ unit).2 hd]
      rfl

example : avgTimeBetween "minutes" [some 0, none, some 240000000000, some 60000000000] = .ok (some 2) := by decide +kernel
example : [0, 60000000000, 240000000000].Perm ([some 0, none, some 240000000000, some (60000000000 : Int)].filterMap id) ∧
    ([0, 60000000000, 240000000000] : List Int).Pairwise (· ≤ ·) := by decide

/-- C55: `TimeSinceLast` and `TimeSinceFirst` measure from the last and the first row; they are missing when the time there
is missing, and raise `IndexError` without rows. -/
theorem C55_time_since (unit : String) (d : Rat) (hd : Spec.UnitSeconds unit d) (time : Int) (s : List (Option Int)) :
    (s = [] → timeSinceLast unit time s = .error .indexError ∧ timeSinceFirst unit time s = .error .indexError) ∧
    (∀ l, s = l ++ [none] → timeSinceLast unit time s = .ok none) ∧
    (∀ l, s = none :: l → timeSinceFirst unit time s = .ok none) ∧
    (∀ l t, s = l ++ [some t] → timeSinceLast unit time s = .ok (some (((time - t : Int) : Rat) / 1000000000 / d))) ∧
    (∀ l t, s = some t :: l → timeSinceFirst unit time s = .ok (some (((time - t : Int) : Rat) / 1000000000 / d))) := by
  refine ⟨fun h => ?_, fun l h => ?_, fun l h => ?_, fun l t h => ?_, fun l t h => ?_⟩ <;>
    simp [h, timeSinceLast, timeSinceFirst, lastPd, firstPd, Except.bind, sinceIn, (C59_convert_value _ unit).1 d hd, Except.map]

/-- C55: on complete times in order, `TimeSinceLast` measures from the latest time and `TimeSinceFirst` from the earliest. -/
theorem C55_time_since_sorted (unit : String) (d : Rat) (hd : Spec.UnitSeconds unit d) (time : Int) (ts : List Int)
    (hs : ts.Pairwise (· ≤ ·)) (latest earliest : Int) (h1 : latest ∈ ts) (h2 : ∀ t ∈ ts, t ≤ latest) (h3 : earliest ∈ ts)
    (h4 : ∀ t ∈ ts, earliest ≤ t) :
    timeSinceLast unit time (ts.map some) = .ok (some (((time - latest : Int) : Rat) / 1000000000 / d)) ∧
    timeSinceFirst unit time (ts.map some) = .ok (some (((time - earliest : Int) : Rat) / 1000000000 / d)) := by
  obtain ⟨_, _, _, hl, hf⟩ := C55_time_since unit d hd time (ts.map some)
  constructor
  · rcases List.eq_nil_or_concat ts with rfl | ⟨init, z, hz⟩
    · simp at h1
    · rw [hl (init.map some) z (by simp [hz])]
      have : z = latest := by
        have := h2 z (by simp [hz])
        rw [hz] at h1 hs
        rcases List.mem_append.mp (by simpa using h1 : latest ∈ init ++ [z]) with h | h
        · have := (List.pairwise_append.mp (by simpa using hs : (init ++ [z]).Pairwise (· ≤ ·))).2.2 _ h z (by simp); omega
        · simp at h; omega
      rw [this]
  · cases ts with
    | nil => simp at h3
    | cons a l =>
      rw [hf (l.map some) a (by simp)]
      have : a = earliest := by
        have := h4 a (by simp)
        rcases List.mem_cons.mp h3 with h | h
        · omega
        · have := (List.pairwise_cons.mp hs).1 _ h; omega
      rw [this]

example : timeSinceLast "seconds" 9000000000 [some 1000000000, some 4000000000] = .ok (some 5) := by decide +kernel

/-! ### Trend -/

theorem completeRows_points (d : Rat) : ∀ (x : List (Option Int)) (y : List (Option Rat)),
    (completeRows y x).map (fun p => ((p.1 : Rat) / 1000000000 / d, p.2)) = Spec.points d x y
  | [], y => by simp [completeRows, Spec.points]
  | a :: x, [] => by cases a <;> simp [completeRows, Spec.points]
  | a :: x, b :: y => by
    have := completeRows_points d x y
    cases a <;> cases b <;> simpa [completeRows, Spec.points] using this

theorem completeRows_first : ∀ (x : List (Option Int)) (y : List (Option Rat)),
    (completeRows y x).head?.map Prod.fst = Spec.firstTime x y
  | [], y => by simp [completeRows, Spec.firstTime]
  | a :: x, [] => by cases a <;> simp [completeRows, Spec.firstTime]
  | a :: x, b :: y => by
    have := completeRows_first x y
    cases a <;> cases b <;> simpa [completeRows, Spec.firstTime] using this

theorem findDividend_iff (t d : Int) (h : Spec.ClockUnit t d) : findDividend t = d := by
  obtain ⟨h1, h2, h3⟩ := h
  simp only [List.mem_cons, List.not_mem_nil, or_false, forall_eq_or_imp, forall_eq] at h1 h3
  obtain ⟨ha, hb, hc, hd⟩ := h3
  unfold findDividend
  rcases h1 with rfl | rfl | rfl | rfl <;> simp only [Int.dvd_iff_emod_eq_zero] at * <;> grind

theorem sum_centred (l : List Rat) (h : l ≠ []) : (centred l).sum = 0 := by
  have key : ∀ (l : List Rat) (m : Rat), (l.map fun v => v - m).sum = l.sum - (l.length : Rat) * m := by
    intro l m
    induction l with
    | nil => simp; grind
    | cons a l ih =>
      simp only [List.map_cons, List.sum_cons, ih, List.length_cons]
      have : ((l.length + 1 : Nat) : Rat) = (l.length : Rat) + 1 := by simp
      rw [this]; grind
  unfold centred
  rw [key]
  have : (l.length : Rat) ≠ 0 := by
    have : l.length ≠ 0 := by simpa using h
    exact_mod_cast this
  rw [Rat.mul_comm, Rat.div_mul_cancel this]
  grind

theorem sumsq_zero : ∀ (l : List Rat), 0 ≤ (l.map fun v => v * v).sum ∧ ((l.map fun v => v * v).sum = 0 → ∀ v ∈ l, v = 0)
  | [] => by simp
  | a :: l => by
    obtain ⟨h1, h2⟩ := sumsq_zero l
    have h3 := rat_sq_nonneg a
    simp only [List.map_cons, List.sum_cons]
    refine ⟨by grind, fun h v hv => ?_⟩
    have ha : a * a = 0 := by grind
    have hl : (l.map fun v => v * v).sum = 0 := by grind
    rcases List.mem_cons.mp hv with rfl | hv
    · rcases Rat.mul_eq_zero.mp ha with h | h <;> exact h
    · exact h2 hl v hv

theorem sqErr_shift : ∀ (pts : List (Rat × Rat)) (mx my a b : Rat),
    Spec.sqErr (pts.map fun p => (p.1 - mx, p.2 - my)) a b = Spec.sqErr pts (a + my - b * mx) b
  | [], _, _, _, _ => rfl
  | p :: ps, mx, my, a, b => by
    simp only [List.map_cons, Spec.sqErr, sqErr_shift ps mx my a b]
    grind

theorem leastSquares_shift (pts : List (Rat × Rat)) (mx my s : Rat)
    (h : Spec.LeastSquaresSlope (pts.map fun p => (p.1 - mx, p.2 - my)) s) : Spec.LeastSquaresSlope pts s := by
  obtain ⟨c, hc⟩ := h
  refine ⟨c + my - s * mx, fun a b => ?_⟩
  have := hc (a - my + b * mx) b
  rw [sqErr_shift, sqErr_shift] at this
  have e : a - my + b * mx + my - b * mx = a := by grind
  rwa [e] at this

theorem dedup_all_eq {l : List Rat} (hne : l ≠ []) : (dedup l).length = 1 ↔ ∀ a ∈ l, ∀ b ∈ l, a = b := by
  constructor
  · intro h a ha b hb
    obtain ⟨c, hc⟩ := List.length_eq_one_iff.mp h
    have h1 := (mem_dedup _ _).mpr ha
    have h2 := (mem_dedup _ _).mpr hb
    rw [hc] at h1 h2
    simp at h1 h2
    rw [h1, h2]
  · intro h
    cases hd : dedup l with
    | nil =>
      cases l with
      | nil => exact absurd rfl hne
      | cons a l => simp [dedup] at hd
    | cons c r =>
      cases r with
      | nil => rfl
      | cons e r =>
        have hn := nodup_dedup l
        rw [hd] at hn
        have : c = e := h c ((mem_dedup _ _).mp (by rw [hd]; simp)) e ((mem_dedup _ _).mp (by rw [hd]; simp))
        simp [this] at hn

/-- C55: `Trend` is missing with at most two complete rows. Otherwise it is the slope of the least squares line of the
values over the times, or 0 when all the times are the same. Partial: the slope is not per fixed unit of time, the unit
depends on the time of the first row (`C55_trend_unit_violated`). -/
theorem C55_trend_partial (y : List (Option Rat)) (x : List (Option Int)) (t d : Int) (ht : Spec.firstTime x y = some t)
    (hd : Spec.ClockUnit (t.tdiv 1000000000) d) :
    ((Spec.points d x y).length ≤ 2 → trendPd y x = none) ∧
    (2 < (Spec.points d x y).length →
      ((∀ p ∈ Spec.points d x y, ∀ q ∈ Spec.points d x y, p.1 = q.1) → trendPd y x = some 0) ∧
      (∀ p ∈ Spec.points d x y, ∀ q ∈ Spec.points d x y, p.1 ≠ q.1 →
        ∃ s, trendPd y x = some s ∧ Spec.LeastSquaresSlope (Spec.points d x y) s)) := by
  have hp := completeRows_points d x y
  have hf := completeRows_first x y
  rw [ht] at hf
  unfold trendPd
  generalize hrows : completeRows y x = rows at hp hf
  generalize hpts : Spec.points d x y = pts at hp
  match rows with
  | [] => simp at hf
  | [_] => subst hp; simp
  | [_, _] => subst hp; simp
  | (t0, v0) :: r1 :: r2 :: rows =>
    simp only [List.head?_cons, Option.map_some, Option.some.injEq] at hf
    subst hf
    have hlen : 2 < pts.length := by rw [← hp]; simp
    have hne : pts ≠ [] := by intro e; rw [e] at hlen; simp at hlen
    refine ⟨fun h => absurd h (by omega), fun _ => ?_⟩
    simp only []
    have hxs : datetimeToFloats t0 (((t0, v0) :: r1 :: r2 :: rows).map Prod.fst) = pts.map Prod.fst := by
      rw [← hp]
      simp only [datetimeToFloats, List.map_map, findDividend_iff _ _ hd, Function.comp_def]
    have hys : ((t0, v0) :: r1 :: r2 :: rows).map Prod.snd = pts.map Prod.snd := by
      rw [← hp]
      simp only [List.map_map, Function.comp_def]
    rw [hxs, hys]
    have hc : centred (pts.map Prod.fst) ≠ [] := by simpa [centred] using hne
    have hdd : (dedup (centred (pts.map Prod.fst))).length = 1 ↔ ∀ p ∈ pts, ∀ q ∈ pts, p.1 = q.1 := by
      rw [dedup_all_eq hc]
      simp only [centred, List.mem_map]
      constructor
      · intro h p hp' q hq
        have := h _ ⟨p.1, ⟨p, hp', rfl⟩, rfl⟩ _ ⟨q.1, ⟨q, hq, rfl⟩, rfl⟩
        grind
      · rintro h _ ⟨_, ⟨p, hp', rfl⟩, rfl⟩ _ ⟨_, ⟨q, hq, rfl⟩, rfl⟩
        rw [h p hp' q hq]
    refine ⟨fun h => by rw [if_pos (hdd.mpr h)], fun p hp' q hq hpq => ?_⟩
    rw [if_neg (fun h => hpq (hdd.mp h p hp' q hq))]
    refine ⟨_, rfl, ?_⟩
    have hz : ∃ mx my, (centred (pts.map Prod.fst)).zip (centred (pts.map Prod.snd)) = pts.map fun p => (p.1 - mx, p.2 - my) := by
      refine ⟨(pts.map Prod.fst).sum / ((pts.map Prod.fst).length : Rat), (pts.map Prod.snd).sum / ((pts.map Prod.snd).length : Rat), ?_⟩
      simp only [centred]
      generalize (pts.map Prod.fst).sum / ((pts.map Prod.fst).length : Rat) = mx
      generalize (pts.map Prod.snd).sum / ((pts.map Prod.snd).length : Rat) = my
      rw [List.map_map, List.map_map, List.zip_map']
      rfl
    obtain ⟨mx, my, hz⟩ := hz
    refine leastSquares_shift pts mx my _ ?_
    rw [← hz]
    have hl : ((centred (pts.map Prod.fst)).zip (centred (pts.map Prod.snd))).map Prod.fst = centred (pts.map Prod.fst) := by
      rw [List.map_fst_zip]
      simp [centred]
    have hsum : (((centred (pts.map Prod.fst)).zip (centred (pts.map Prod.snd))).map fun p => p.1).sum = 0 := by
      have : (fun p : Rat × Rat => p.1) = Prod.fst := rfl
      rw [this, hl, sum_centred _ (by simpa using hne)]
    have hsq : (((centred (pts.map Prod.fst)).zip (centred (pts.map Prod.snd))).map fun p => p.1 * p.1).sum =
        ((centred (pts.map Prod.fst)).map fun v => v * v).sum := by
      rw [← congrArg (List.map fun v => v * v) hl, List.map_map]
      rfl
    refine fitSlope_least _ ?_ ?_
    · rw [hz]; simpa using hne
    · rw [hsum, hsq]
      obtain ⟨h1, h2⟩ := sumsq_zero (centred (pts.map Prod.fst))
      have hpos : 0 < ((centred (pts.map Prod.fst)).map fun v => v * v).sum := by
        rcases (by grind : 0 < ((centred (pts.map Prod.fst)).map fun v => v * v).sum ∨ 0 = ((centred (pts.map Prod.fst)).map fun v => v * v).sum) with h | h
        · exact h
        · exfalso
          have := h2 h.symm
          exact hpq (hdd.mp ((dedup_all_eq hc).mpr (fun a ha b hb => by rw [this a ha, this b hb])) p hp' q hq)
      have hlen' : (0 : Rat) < (((centred (pts.map Prod.fst)).zip (centred (pts.map Prod.snd))).length : Rat) := by
        rw [hz, List.length_map]
        have : 0 < pts.length := by omega
        exact_mod_cast this
      have := Rat.mul_pos hlen' hpos
      grind

namespace AggExample
/-- Three values an hour apart, from midnight on. -/
def times : List (Option Int) := [some 0, none, some 3600000000000, some 7200000000000]
/-- See `times`. -/
def vals : List (Option Rat) := [some 1, some 9, some 3, some 5]
end AggExample
open AggExample

example : trendPd vals times = some 48 := by decide +kernel
example : Spec.firstTime times vals = some 0 ∧ Spec.ClockUnit (Int.tdiv 0 1000000000) 86400 ∧ 2 < (Spec.points 86400 times vals).length := by
  refine ⟨rfl, ?_, by decide +kernel⟩
  simp [Spec.ClockUnit]

/-- C55 does not hold for `Trend` per unit of time: the same events an hour later have another trend. -/
theorem C55_trend_unit_violated :
    ∃ (y : List (Option Rat)) (x : List (Option Int)), trendPd y (x.map fun t => t.map fun n => n + 3600000000000) ≠ trendPd y x :=
  ⟨vals, times, by decide +kernel⟩

example : modePd (fun a b => decide ((match a with | .num n => n | _ => 0) ≤ (match b with | .num n => n | _ => 0)))
    [.num 3, .null, .num 2, .num 3, .num 2, .num 7, .null, .null] = .num 2 := by decide
example : nMostCommonPd id 3 [.num 3, .null, .num 2, .num 2] = [.num 2, .num 3, .null] := by decide
example : percentTruePd [some true, none, some false, some true] = some (1 / 2) := by decide +kernel
example : Parts.rowsL [.one [some true], .many [.one [], .one [some false, none]]] ≠ [] := by decide
example : percentTrueDask.run [.one [some true], .many [.one [], .one [some false, none]]] = 1 / 3 := by decide +kernel

end FT
