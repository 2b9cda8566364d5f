import Verif.Spec.Selection
import Verif.Lemmas.Query
/-! Lemmas on feature selection. -/
namespace FT
open Spec

theorem two_of_dedup (l : List Val) : (dedup l).length > 1 ↔ ∃ x ∈ l, ∃ y ∈ l, x ≠ y := by
  have hn := nodup_dedup l
  have hm := mem_dedup l
  constructor
  · intro h
    match hd : dedup l, h with
    | a :: b :: rest, _ =>
      rw [hd] at hn hm
      refine ⟨a, (hm a).mp (by simp), b, (hm b).mp (by simp), ?_⟩
      intro e
      simp [e] at hn
  · rintro ⟨x, hx, y, hy, hxy⟩
    rw [← hm] at hx hy
    match hd : dedup l with
    | [] => rw [hd] at hx; simp at hx
    | [a] =>
      rw [hd] at hx hy
      simp only [List.mem_singleton] at hx hy
      exact absurd (hx.trans hy.symm) hxy
    | a :: b :: rest => simp

theorem varies_iff (t : Table) (c : String) : nuniqueAll (t.column c) > 1 ↔ Varies t c := by
  rw [nuniqueAll, two_of_dedup]
  unfold Varies Table.column
  constructor
  · rintro ⟨x, hx, y, hy, h⟩
    obtain ⟨r, hr, rfl⟩ := List.mem_map.mp hx
    obtain ⟨s, hs, rfl⟩ := List.mem_map.mp hy
    exact ⟨r, hr, s, hs, h⟩
  · rintro ⟨r, hr, s, hs, h⟩
    exact ⟨_, List.mem_map.mpr ⟨r, hr, rfl⟩, _, List.mem_map.mpr ⟨s, hs, rfl⟩, h⟩

theorem hasTwo_iff (t : Table) (c : String) : nuniqueSome (t.column c) > 1 ↔ HasTwoValues t c := by
  rw [nuniqueSome, two_of_dedup]
  unfold HasTwoValues Table.column dropna
  constructor
  · rintro ⟨x, hx, y, hy, h⟩
    obtain ⟨hx, hx'⟩ := List.mem_filter.mp hx
    obtain ⟨hy, hy'⟩ := List.mem_filter.mp hy
    obtain ⟨r, hr, rfl⟩ := List.mem_map.mp hx
    obtain ⟨s, hs, rfl⟩ := List.mem_map.mp hy
    exact ⟨r, hr, s, hs, by simpa using hx', by simpa using hy', h⟩
  · rintro ⟨r, hr, s, hs, h1, h2, h⟩
    exact ⟨_, List.mem_filter.mpr ⟨List.mem_map.mpr ⟨r, hr, rfl⟩, by simpa using h1⟩, _,
      List.mem_filter.mpr ⟨List.mem_map.mpr ⟨s, hs, rfl⟩, by simpa using h2⟩, h⟩

theorem hasValue_iff (t : Table) (c : String) : (dropna (t.column c)).length > 0 ↔ HasValue t c := by
  unfold HasValue Table.column dropna
  rw [gt_iff_lt, List.length_pos_iff_exists_mem]
  simp only [List.mem_filter, List.mem_map, decide_eq_true_eq]
  constructor
  · rintro ⟨_, ⟨r, hr, rfl⟩, h⟩; exact ⟨r, hr, h⟩
  · rintro ⟨r, hr, h⟩; exact ⟨_, ⟨r, hr, rfl⟩, h⟩

theorem nulls_column (t : Table) (c : String) : ((t.column c).filter fun v => v = .null).length = nulls t c := by
  unfold nulls Table.column
  rw [← List.countP_eq_length_filter, List.countP_map]
  rfl

theorem fewNulls_iff (t : Table) (c : String) (threshold : Rat) :
    fewNulls threshold (nullShare (t.column c)) = true ↔
      t.rows ≠ [] ∧ if threshold = 0 then nulls t c = 0 else (nulls t c : Rat) < threshold * t.rows.length := by
  unfold nullShare
  rw [nulls_column]
  have hlen : (t.column c).length = t.rows.length := by simp [Table.column]
  by_cases he : t.rows = []
  · have : t.column c = [] := by simp [Table.column, he]
    simp [this, fewNulls, he]
  · have hne : t.column c ≠ [] := by simpa [Table.column] using he
    have hpos : (0 : Rat) < (t.rows.length : Rat) := by
      have : 0 < t.rows.length := List.length_pos_iff.mpr he
      exact_mod_cast this
    rw [if_neg (by simpa using hne), hlen]
    simp only [fewNulls, he, ne_eq, not_false_eq_true, true_and]
    by_cases h0 : threshold = 0
    · simp only [h0, if_true, decide_eq_true_eq]
      rw [← Rat.not_lt, Rat.lt_div_iff hpos, Rat.zero_mul, Rat.not_lt]
      constructor
      · intro h
        have : nulls t c ≤ 0 := by exact_mod_cast h
        omega
      · intro h; rw [h]; exact Rat.le_refl
    · simp only [h0, if_false, decide_eq_true_eq]
      rw [Rat.div_lt_iff hpos]

/-! ## Features -/

theorem getElem_range_map {α : Type} (l : List α) (d : α) : (List.range l.length).map (fun i => l.getD i d) = l := by
  apply List.ext_getElem
  · simp
  · intro i h1 h2
    simp [List.getD, List.getElem?_eq_getElem h2]

theorem filter_range_map {α : Type} (l : List α) (d : α) (p : α → Bool) :
    ((List.range l.length).filter fun i => (l[i]?).any p).map (fun i => l.getD i d) = l.filter p := by
  induction l with
  | nil => rfl
  | cons a l ih =>
    rw [List.length_cons, List.range_succ_eq_map, List.filter_cons, List.filter_cons, List.filter_map]
    have h1 : ((fun i => ((a :: l)[i]?).any p) ∘ Nat.succ) = fun i : Nat => (l[i]?).any p := by
      funext i; simp
    rw [h1]
    have h2 : ((List.filter (fun i : Nat => (l[i]?).any p) (List.range l.length)).map Nat.succ).map (fun i => (a :: l).getD i d) = l.filter p := by
      rw [← ih, List.map_map]
      apply List.map_congr_left
      intro i _
      simp [List.getD]
    by_cases hp : p a = true
    · simp only [List.getElem?_cons_zero, Option.any_some, hp, if_true, List.map_cons, h2]
      simp [List.getD]
    · simp only [List.getElem?_cons_zero, Option.any_some, hp, Bool.false_eq_true, if_false]
      exact h2

theorem applyOne_names {keep : List String} {f : SelFeat} (hf : Sound f) : (applyOne keep f).flatMap pickedNames = f.names.filter fun n => keep.contains n := by
  have hs : (keptSlices keep f).flatMap pickedNames = f.names.filter fun n => keep.contains n := by
    rw [keptSlices, ← filter_range_map f.names "" fun n => keep.contains n, List.flatMap_map]
    simp only [pickedNames]
    exact List.map_eq_flatMap.symm
  unfold applyOne
  split
  · split
    · next hl =>
      have : (f.names.filter fun n => keep.contains n).length = f.names.length := by
        rw [← hs, ← hl, List.length_flatMap]
        rw [show (keptSlices keep f).map (fun a => (pickedNames a).length) = (keptSlices keep f).map (fun _ => 1) from
          List.map_congr_left fun a ha => by
            unfold keptSlices at ha
            obtain ⟨i, _, rfl⟩ := List.mem_map.mp ha
            rfl, List.map_const', List.sum_replicate_nat, Nat.mul_one]
      rw [List.filter_eq_self.mpr]
      · simp [pickedNames]
      · exact List.length_filter_eq_length_iff.mp this
    · exact hs
  · have h1 := hf.2 (by have := List.length_pos_iff.mpr hf.1; omega)
    rw [h1]
    split
    · next h => rw [List.filter_cons, if_pos h]; simp [pickedNames, h1]
    · next h => rw [List.filter_cons, if_neg h]; rfl

theorem apply_names {t : Table} {features : List SelFeat} {keep : List String} (hf : ∀ f ∈ features, Sound f) :
    (applySelection t features keep).2.flatMap pickedNames = (features.flatMap SelFeat.names).filter fun n => keep.contains n := by
  unfold applySelection
  induction features with
  | nil => rfl
  | cons f fs ih =>
    simp only [List.flatMap_cons, List.flatMap_append, List.filter_append] at ih ⊢
    rw [applyOne_names (hf f List.mem_cons_self), ih fun g hg => hf g (List.mem_cons_of_mem _ hg)]

/-- Every feature in the result is one given, or an output of one that lost some other output. -/
theorem apply_from {t : Table} {features : List SelFeat} {keep : List String} {p : Picked} (h : p ∈ (applySelection t features keep).2) :
    (∃ f ∈ features, p = .whole f) ∨ ∃ f ∈ features, ∃ i, p = .slice f i ∧ i < f.names.length ∧ ∃ n ∈ f.names, n ∉ keep := by
  unfold applySelection at h
  obtain ⟨f, hf, hp⟩ := List.mem_flatMap.mp h
  unfold applyOne at hp
  split at hp
  · split at hp
    · simp only [List.mem_singleton] at hp
      exact .inl ⟨f, hf, hp⟩
    · next hl =>
      right
      have hp0 := hp
      unfold keptSlices at hp
      obtain ⟨i, hi, rfl⟩ := List.mem_map.mp hp
      refine ⟨f, hf, i, rfl, by simpa using (List.mem_filter.mp hi).1, ?_⟩
      have hlt : (keptSlices keep f).length ≠ f.names.length := hl
      have hcount : (keptSlices keep f).length = (f.names.filter fun n => keep.contains n).length := by
        rw [← filter_range_map f.names "" fun n => keep.contains n, keptSlices, List.length_map, List.length_map]
      rw [hcount] at hlt
      have := mt List.length_filter_eq_length_iff.mpr hlt
      simpa using this
  · split at hp
    · simp only [List.mem_singleton] at hp
      exact .inl ⟨f, hf, hp⟩
    · simp at hp

/-! ## Correlation -/

theorem highCorr_iff (S : Stats) (t : Table) {threshold : Rat} (h0 : 0 ≤ threshold) (c d : String) : highCorr S t threshold c d = true ↔ Correlated S t threshold c d := by
  unfold highCorr Correlated Table.column
  cases S.corr (t.rows.map fun r => r c) (t.rows.map fun r => r d) with
  | none => simp
  | some x =>
    simp only [ge_iff_le, decide_eq_true_eq, Option.some.injEq, exists_eq_left']
    split <;> grind

theorem mem_dropped (S : Stats) (t : Table) (threshold : Rat) : ∀ (l : List String) (c : String),
    c ∈ droppedFrom S t threshold l.reverse ↔ ∃ d, Before l d c ∧ highCorr S t threshold c d = true := by
  intro l c
  suffices h : ∀ m : List String, c ∈ droppedFrom S t threshold m ↔ ∃ d, (∃ i j : Nat, i < j ∧ m[i]? = some c ∧ m[j]? = some d) ∧ highCorr S t threshold c d = true by
    rw [h]
    refine exists_congr fun d => and_congr_left fun _ => ?_
    constructor
    · rintro ⟨i, j, hij, hi, hj⟩
      have hil : i < l.length := by simpa using (List.getElem?_eq_some_iff.mp hi).1
      have hjl : j < l.length := by simpa using (List.getElem?_eq_some_iff.mp hj).1
      rw [List.getElem?_reverse hil] at hi
      rw [List.getElem?_reverse hjl] at hj
      exact ⟨_, _, by omega, hj, hi⟩
    · rintro ⟨i, j, hij, hi, hj⟩
      have hil : i < l.length := (List.getElem?_eq_some_iff.mp hi).1
      have hjl : j < l.length := (List.getElem?_eq_some_iff.mp hj).1
      refine ⟨l.length - 1 - j, l.length - 1 - i, by omega, ?_, ?_⟩
      · rw [List.getElem?_reverse (by omega), show l.length - 1 - (l.length - 1 - j) = j by omega, hj]
      · rw [List.getElem?_reverse (by omega), show l.length - 1 - (l.length - 1 - i) = i by omega, hi]
  intro m
  induction m with
  | nil => simp [droppedFrom]
  | cons a m ih =>
    rw [droppedFrom, List.mem_append, ih]
    constructor
    · rintro (h | ⟨d, ⟨i, j, hij, hi, hj⟩, h⟩)
      · split at h
        · next ha =>
          simp only [List.mem_singleton] at h
          subst h
          obtain ⟨d, hd, hc⟩ := List.any_eq_true.mp ha
          obtain ⟨j, hj⟩ := List.getElem?_of_mem hd
          exact ⟨d, ⟨0, j + 1, by omega, rfl, by simpa using hj⟩, hc⟩
        · simp at h
      · exact ⟨d, ⟨i + 1, j + 1, by omega, by simpa using hi, by simpa using hj⟩, h⟩
    · rintro ⟨d, ⟨i, j, hij, hi, hj⟩, h⟩
      match j, hij with
      | j + 1, hij =>
        simp only [List.getElem?_cons_succ] at hj
        match i with
        | 0 =>
          simp only [List.getElem?_cons_zero, Option.some.injEq] at hi
          subst hi
          left
          rw [if_pos (List.any_eq_true.mpr ⟨d, List.mem_of_getElem? hj, h⟩)]
          simp
        | i + 1 => exact .inr ⟨d, ⟨i, j, by omega, by simpa using hi, hj⟩, h⟩

end FT
