import Verif.Lemmas.Util
import Verif.Spec.Util
/-!
# C17, C34 (binning), C38, C57, C59: small utilities
-/
namespace FT

/-! ### C17: schema versions -/

theorem upgradeWarning_prefix (p x y : List (List Char)) :
    upgradeWarning (p ++ x) (p ++ y) = upgradeWarning x y := by
  induction p with
  | nil => rfl
  | cons a p ih => simp [upgradeWarning, strLt_irrefl, ih]

/-- C17. The current version loads silently. -/
theorem C17_current_silent (v : String) : checkSchemaVersion v (some v) = .ok { upgrade := false, outdated := false } := by
  have h := upgradeWarning_prefix (splitDot v.toList) [] []
  rw [List.append_nil] at h
  simp only [checkSchemaVersion, h, strLt_irrefl]
  rfl

/-- C17 (partial). If the versions first differ in components `a` (current) and `b` (saved) written with equally many
digits, the checks are the numeric ones: the upgrade warning is given iff the saved version is newer, and the outdated
warning iff the saved major version is older.
Missing: components with different numbers of digits are compared as text (`C17_compared_as_text`), and a version that
only extends the other crashes (`C17_prefix_crashes`). -/
theorem C17_first_difference_partial (p x y : List Nat) (a b : Nat) (hab : a ≠ b)
    (hd : (Nat.repr a).length = (Nat.repr b).length) :
    ∃ w, checkSchemaVersion (Spec.showVersion (p ++ a :: x)) (some (Spec.showVersion (p ++ b :: y))) = .ok w ∧
      (w.upgrade = true ↔ Spec.NewerThan (p ++ b :: y) (p ++ a :: x)) ∧
      (w.outdated = true ↔ (p ++ b :: y).headD 0 < (p ++ a :: x).headD 0) := by
  simp only [checkSchemaVersion]
  rw [splitDot_show _ (by simp), splitDot_show _ (by simp), List.map_append, List.map_append, upgradeWarning_prefix]
  have hup : upgradeWarning ((a :: x).map fun n => (Nat.repr n).toList) ((b :: y).map fun n => (Nat.repr n).toList) =
      .ok (decide (a < b)) := by
    simp only [List.map_cons, upgradeWarning, strLt_repr a b hd, strLt_repr b a hd.symm]
    by_cases h : b < a
    · simp [h]; omega
    · have h2 : a < b := by omega
      simp [h, h2]
  rw [hup]
  refine ⟨_, rfl, ?_, ?_⟩
  · have : ∀ p : List Nat, Spec.NewerThan (p ++ b :: y) (p ++ a :: x) ↔ a < b := by
      intro p
      induction p with
      | nil => simp only [List.nil_append, Spec.NewerThan]; constructor
               · rintro (h | ⟨h, _⟩)
                 · exact h
                 · exact absurd h.symm hab
               · exact .inl
      | cons c p ih => simp only [List.cons_append, Spec.NewerThan, Nat.lt_irrefl, false_or, true_and, ih]
    rw [this p]; simp
  · cases p with
    | nil => simp only [List.map_nil, List.nil_append, List.map_cons, List.headD_cons, strLt_repr b a hd.symm]; simp
    | cons c p => simp only [List.map_cons, List.cons_append, List.headD_cons, strLt_irrefl]; simp

/-- C17 fails: a version that is a proper prefix of the other (here "5.1" against "5.1.0", and in general) makes loading
raise `TypeError`. -/
theorem C17_prefix_crashes (p x : List Nat) (hp : p ≠ []) (hx : x ≠ []) :
    checkSchemaVersion (Spec.showVersion (p ++ x)) (some (Spec.showVersion p)) = .error .typeError ∧
    checkSchemaVersion (Spec.showVersion p) (some (Spec.showVersion (p ++ x))) = .error .typeError := by
  obtain ⟨c, x, rfl⟩ := List.exists_cons_of_ne_nil hx
  have h1 : upgradeWarning ((p ++ c :: x).map fun n => (Nat.repr n).toList) (p.map fun n => (Nat.repr n).toList) =
      .error .typeError := by
    have := upgradeWarning_prefix (p.map fun n => (Nat.repr n).toList) ((c :: x).map fun n => (Nat.repr n).toList) []
    rw [List.append_nil] at this
    rw [List.map_append, this]; rfl
  have h2 : upgradeWarning (p.map fun n => (Nat.repr n).toList) ((p ++ c :: x).map fun n => (Nat.repr n).toList) =
      .error .typeError := by
    have := upgradeWarning_prefix (p.map fun n => (Nat.repr n).toList) [] ((c :: x).map fun n => (Nat.repr n).toList)
    rw [List.append_nil] at this
    rw [List.map_append, this]; rfl
  constructor
  · simp only [checkSchemaVersion]
    rw [splitDot_show _ (by simp), splitDot_show _ hp, h1]
  · simp only [checkSchemaVersion]
    rw [splitDot_show _ hp, splitDot_show (p ++ c :: x) (by simp), h2]

/-- C17 fails: components are compared as text, so the newer major version 10 is reported as outdated and not as newer. -/
theorem C17_compared_as_text :
    checkSchemaVersion "5.1.0" (some "10.0.0") = .ok { upgrade := false, outdated := true } ∧
    Spec.NewerThan [10, 0, 0] [5, 1, 0] := by
  refine ⟨by decide, ?_⟩
  simp [Spec.NewerThan]

/-- C17. A description without a version is rejected. -/
theorem C17_missing_version (v : String) : checkSchemaVersion v none = .error .attributeError := rfl

example : checkSchemaVersion "5.1.0" (some "5.2.0") = .ok { upgrade := true, outdated := false } := by decide
example : checkSchemaVersion "5.1.0" (some "4.9.0") = .ok { upgrade := false, outdated := true } := by decide
example : Spec.showVersion [5, 1, 0] = "5.1.0" := by decide

/-! ### C34: binning of cutoff times -/

theorem isFloor_div (w t : Int) (hw : 0 < w) : Spec.IsFloor w t (t / w * w) := by
  refine ⟨⟨_, rfl⟩, ?_, ?_⟩
  · have := Int.mul_ediv_add_emod t w
    have h := Int.emod_nonneg t (by omega : w ≠ 0)
    rw [Int.mul_comm] at this
    omega
  · intro k hk
    have : k ≤ t / w := (Int.le_ediv_iff_mul_le hw).mpr hk
    exact Int.mul_le_mul_of_nonneg_right this (by omega)

theorem datetimeRound_single (times : List Int) (freq : Timedelta) (u : String) (v ns : Int)
    (hf : freq.times = [(u, v)]) (hu : Spec.nsOf u = some ns) (hv : 0 < v) :
    datetimeRound times freq = .ok (some (times.map fun t => t / (v * ns) * (v * ns))) := by
  have hcase : (u = "ms" ∧ ns = 1000000) ∨ (u = "s" ∧ ns = 1000000000) ∨ (u = "m" ∧ ns = 60000000000) ∨
      (u = "h" ∧ ns = 3600000000000) ∨ (u = "d" ∧ ns = 86400000000000) ∨ (u = "w" ∧ ns = 604800000000000) := by
    unfold Spec.nsOf at hu
    split at hu <;> simp at hu <;> subst hu <;> simp
  unfold datetimeRound
  rw [hf]
  rcases hcase with ⟨rfl, rfl⟩ | ⟨rfl, rfl⟩ | ⟨rfl, rfl⟩ | ⟨rfl, rfl⟩ | ⟨rfl, rfl⟩ | ⟨rfl, rfl⟩
  all_goals simp only [Timedelta.isAbsolute, Timedelta.getUnits, List.map_cons, List.map_nil, List.all_cons, List.all_nil,
    Timedelta.absoluteUnits]
  · have : Dict.get? unitNs "ms" = some 1000000 := by decide
    simp [this]; omega
  · have : Dict.get? unitNs "s" = some 1000000000 := by decide
    simp [this]; omega
  · have : Dict.get? unitNs "t" = some 60000000000 := by decide
    simp [this]; omega
  · have : Dict.get? unitNs "h" = some 3600000000000 := by decide
    simp [this]; omega
  · have : Dict.get? unitNs "d" = some 86400000000000 := by decide
    simp [this]; omega
  · have : Dict.get? unitNs "d" = some 86400000000000 := by decide
    have e : v * 7 * 86400000000000 = v * 604800000000000 := by rw [Int.mul_assoc]; rfl
    simp [this, e]; omega

/-- C34. With a window of a positive number of one absolute unit every cutoff time is mapped to the largest multiple of the
window that does not exceed it. -/
theorem C34_bin_is_floor (times : List Int) (freq : Timedelta) (u : String) (v ns : Int)
    (hf : freq.times = [(u, v)]) (hu : Spec.nsOf u = some ns) (hv : 0 < v) :
    ∃ bin : Int → Int, datetimeRound times freq = .ok (some (times.map bin)) ∧
      ∀ t, Spec.IsFloor (v * ns) t (bin t) ∧ t - v * ns < bin t := by
  have hns : 0 < ns := by
    unfold Spec.nsOf at hu
    split at hu <;> simp at hu <;> omega
  have hw : 0 < v * ns := Int.mul_pos hv hns
  refine ⟨fun t => t / (v * ns) * (v * ns), datetimeRound_single times freq u v ns hf hu hv, ?_⟩
  intro t
  refine ⟨isFloor_div _ _ hw, ?_⟩
  have := Int.mul_ediv_add_emod t (v * ns)
  have h := Int.emod_lt_of_pos t hw
  rw [Int.mul_comm] at this
  show t - v * ns < t / (v * ns) * (v * ns)
  omega

/-- C34. Binning is order preserving and binned times are left alone. -/
theorem C34_bin_monotone_idempotent (w t t' b b' : Int) (hb : Spec.IsFloor w t b) (hb' : Spec.IsFloor w t' b') :
    (t ≤ t' → b ≤ b') ∧ (∀ c, Spec.IsFloor w b c → c = b) := by
  obtain ⟨⟨k, rfl⟩, h2, h3⟩ := hb
  obtain ⟨_, _, h6⟩ := hb'
  constructor
  · intro h
    exact h6 k (by omega)
  · rintro c ⟨_, h, h'⟩
    have := h' k (Int.le_refl _)
    omega

/-- C34. Two times share a bin exactly when no multiple of the window separates them. -/
theorem C34_same_bin (w t t' b b' : Int) (hb : Spec.IsFloor w t b) (hb' : Spec.IsFloor w t' b') :
    b = b' ↔ ∀ k, (k * w ≤ t ↔ k * w ≤ t') := by
  obtain ⟨⟨k, rfl⟩, h2, h3⟩ := hb
  obtain ⟨⟨k', rfl⟩, h5, h6⟩ := hb'
  constructor
  · intro e j
    constructor
    · intro h; have := h3 j h; omega
    · intro h; have := h6 j h; omega
  · intro h
    have h1 := h6 k ((h k).mp h2)
    have h4 := h3 k' ((h k').mpr h5)
    omega

/-- C34. A relative window (months, years, observations) is rejected. -/
theorem C34_relative_rejected (times : List Int) (freq : Timedelta) (u : String) (v : Int)
    (hm : (u, v) ∈ freq.times) (hu : u ∉ ["ms", "s", "h", "m", "d", "w"]) :
    datetimeRound times freq = .error .valueError := by
  unfold datetimeRound
  rw [if_pos]
  simp only [Bool.not_eq_true', Timedelta.isAbsolute, Timedelta.getUnits]
  rw [List.all_eq_false]
  exact ⟨u, List.mem_map.mpr ⟨_, hm, rfl⟩, by simpa [Timedelta.absoluteUnits] using hu⟩

/-- C34 fails for windows of several units: nothing is rejected, and no times come back. -/
theorem C34_multi_unit_no_result (times : List Int) (freq : Timedelta) (h : 2 ≤ freq.times.length)
    (ha : ∀ uv ∈ freq.times, uv.1 ∈ ["ms", "s", "h", "m", "d", "w"]) :
    datetimeRound times freq = .ok none := by
  unfold datetimeRound
  rw [if_neg]
  · match hf : freq.times with
    | [] => rfl
    | [_] => rw [hf] at h; simp at h
    | _ :: _ :: _ => rfl
  · simp only [Bool.not_eq_true', Bool.not_eq_false, Timedelta.isAbsolute, Timedelta.getUnits]
    rw [List.all_eq_true]
    intro x hx
    obtain ⟨uv, hm, rfl⟩ := List.mem_map.mp hx
    simpa [Timedelta.absoluteUnits] using ha uv hm

/-- C34 fails for integer windows: binning returns every time unchanged, so it does not bin. -/
theorem C34_integer_window_does_nothing (size : Int) (h : size ≠ 0) (times : List Rat) : binInt size times = times := by
  unfold binInt
  have : (size : Rat) ≠ 0 := by simpa using h
  rw [show (fun x : Rat => x / (size : Rat) * (size : Rat)) = id from by
    funext x; exact Rat.div_mul_cancel this]
  exact List.map_id _

example : binInt 10 [17] = [17] ∧ Spec.IsFloor 10 17 10 := by
  refine ⟨C34_integer_window_does_nothing 10 (by decide) _, ⟨1, rfl⟩, by decide, fun k hk => ?_⟩
  omega
example : datetimeRound [172900000000000, -1] ⟨[("d", 1)], none⟩ = .ok (some [172800000000000, -86400000000000]) := by
  decide

/-! ### C38: cutoff tables -/

theorem mem_columns_rename (f : Frame) (a b c : String) :
    c ∈ (f.rename a b).columns ↔ (c ∈ f.columns ∧ c ≠ a) ∨ (c = b ∧ a ∈ f.columns) := by
  simp only [Frame.columns, Frame.rename, List.map_map, List.mem_map, Function.comp]
  constructor
  · rintro ⟨x, hx, rfl⟩
    by_cases h : x.1 = a
    · rw [if_pos h]; exact .inr ⟨rfl, x, hx, h⟩
    · simp only [h, if_false]; exact .inl ⟨⟨x, hx, rfl⟩, h⟩
  · rintro (⟨⟨x, hx, rfl⟩, h⟩ | ⟨rfl, x, hx, h⟩)
    · exact ⟨x, hx, by simp [h]⟩
    · exact ⟨x, hx, by simp [h]⟩

theorem mem_rename (f : Frame) (a b c : String) (d : List Val) :
    (c, d) ∈ f.rename a b ↔ ((c, d) ∈ f ∧ c ≠ a) ∨ (c = b ∧ (a, d) ∈ f) := by
  simp only [Frame.rename, List.mem_map]
  constructor
  · rintro ⟨⟨x, y⟩, hx, e⟩
    by_cases h : x = a
    · simp only [h, if_true, Prod.mk.injEq] at e; obtain ⟨rfl, rfl⟩ := e; subst h; exact .inr ⟨rfl, hx⟩
    · simp only [h, if_false, Prod.mk.injEq] at e; obtain ⟨rfl, rfl⟩ := e; exact .inl ⟨hx, h⟩
  · rintro (⟨hx, h⟩ | ⟨rfl, hx⟩)
    · exact ⟨_, hx, by simp [h]⟩
    · exact ⟨_, hx, by simp⟩

theorem nodup_rename (f : Frame) (a b : String) (hn : f.columns.Nodup) (hb : b ∉ f.columns) :
    (f.rename a b).columns.Nodup := by
  have : (f.rename a b).columns = f.columns.map fun c => if c = a then b else c := by
    simp only [Frame.columns, Frame.rename, List.map_map]
    apply List.map_congr_left
    intro c _
    simp only [Function.comp]
    split <;> rfl
  rw [this]
  generalize f.columns = l at hn hb
  induction l with
  | nil => simp
  | cons x l ih =>
    simp only [List.mem_cons, not_or] at hb
    simp only [List.nodup_cons] at hn
    simp only [List.map_cons, List.nodup_cons, ih hn.2 hb.2, and_true, List.mem_map, not_exists, not_and]
    intro y hy e
    by_cases hx : x = a
    · simp only [hx, if_true] at e
      by_cases h : y = a
      · subst h; subst hx; exact hn.1 hy
      · simp only [h, if_false] at e; subst e; exact hb.2 hy
    · simp only [hx, if_false] at e
      by_cases h : y = a
      · simp only [h, if_true] at e; exact hb.1 e
      · simp only [h, if_false] at e; subst e; exact hn.1 hy

theorem col?_eq_some (f : Frame) (hn : f.columns.Nodup) (c : String) (d : List Val) :
    f.col? c = some d ↔ (c, d) ∈ f := by
  simp only [Frame.col?, Frame.columns] at *
  induction f with
  | nil => simp
  | cons x f ih =>
    obtain ⟨k, v⟩ := x
    simp only [List.map_cons, List.nodup_cons] at hn
    simp only [List.lookup_cons, List.mem_cons, Prod.mk.injEq]
    by_cases h : c = k
    · subst h
      simp only [BEq.rfl, true_and]
      constructor
      · intro e; cases e; exact .inl rfl
      · rintro (rfl | hm)
        · rfl
        · exact absurd (List.mem_map.mpr ⟨_, hm, rfl⟩) hn.1
    · have h' : (c == k) = false := by simpa using h
      simp only [h', ih hn.2, h, false_and, false_or]

theorem col?_mem_columns (f : Frame) (c : String) (d : List Val) (h : f.col? c = some d) : c ∈ f.columns := by
  simp only [Frame.col?, Frame.columns] at *
  induction f with
  | nil => simp at h
  | cons x f ih =>
    obtain ⟨k, v⟩ := x
    rw [List.lookup_cons] at h
    by_cases hk : c = k
    · simp [hk]
    · have : (c == k) = false := by simpa using hk
      rw [this] at h
      exact List.mem_cons_of_mem _ (ih h)

theorem mem_columns (f : Frame) (c : String) : c ∈ f.columns ↔ ∃ d, (c, d) ∈ f := by
  simp [Frame.columns]

theorem rename_absent (f : Frame) (a b : String) (h : a ∉ f.columns) : f.rename a b = f := by
  unfold Frame.rename
  conv => rhs; rw [← List.map_id f]
  apply List.map_congr_left
  intro c hc
  have : c.1 ≠ a := fun e => h (e ▸ List.mem_map.mpr ⟨c, hc, rfl⟩)
  simp [this]

theorem rename_self (f : Frame) (a : String) : f.rename a a = f := by
  unfold Frame.rename
  conv => rhs; rw [← List.map_id f]
  apply List.map_congr_left
  intro c hc
  by_cases h : c.1 = a
  · simp [h]; rw [← h]
  · simp [h]

theorem validateTail_ok (index : String) (ti : Option String) (f g : Frame) :
    validateTail index ti f = .ok g ↔
      g = f ∧ ¬ ("instance_id" ∈ f.columns ∧ index ∈ f.columns ∧ "instance_id" ≠ index) ∧
      ¬ ("time" ∈ f.columns ∧ (∃ t, ti = some t ∧ t ∈ f.columns ∧ t ≠ "time")) ∧
      ∃ ids ts, f.col? "instance_id" = some ids ∧ f.col? "time" = some ts ∧ (ids.zip ts).Nodup := by
  unfold validateTail
  split
  · rename_i h
    simp only [Bool.and_eq_true, List.contains_iff_mem, bne_iff_ne] at h
    constructor
    · intro h'; cases h'
    · rintro ⟨_, h', _⟩; exact absurd ⟨h.1.1, h.1.2, h.2⟩ h'
  · rename_i h
    simp only [Bool.and_eq_true, List.contains_iff_mem, bne_iff_ne] at h
    split
    · rename_i h2
      constructor
      · intro h'; cases h'
      · rintro ⟨_, _, h', _⟩
        refine absurd ?_ h'
        cases ti with
        | none => simp at h2
        | some t =>
          simp only [Option.map_some, Option.getD_some, Bool.and_eq_true, List.contains_iff_mem, bne_iff_ne] at h2
          exact ⟨h2.1.1, t, rfl, h2.1.2, fun e => h2.2 (by rw [e])⟩
    · rename_i h2
      have h2' : ¬ ("time" ∈ f.columns ∧ (∃ t, ti = some t ∧ t ∈ f.columns ∧ t ≠ "time")) := by
        rintro ⟨a, t, rfl, b, c⟩
        apply h2
        simp [List.contains_iff_mem, a, b, c]
      have h' : ¬ ("instance_id" ∈ f.columns ∧ index ∈ f.columns ∧ "instance_id" ≠ index) := by
        rintro ⟨a, b, c⟩; exact h ⟨⟨a, b⟩, c⟩
      cases hi : f.col? "instance_id" with
      | none => simp
      | some ids =>
        cases ht : f.col? "time" with
        | none => simp
        | some ts =>
          simp only
          by_cases hd : noDup (ids.zip ts)
          · simp only [hd, if_true, Except.ok.injEq]
            constructor
            · rintro rfl; exact ⟨rfl, h', h2', ids, ts, rfl, rfl, (noDup_iff _).mp hd⟩
            · rintro ⟨rfl, _⟩; rfl
          · simp only [hd]
            constructor
            · intro h; cases h
            · rintro ⟨_, _, _, ids', ts', e1, e2, hd'⟩
              cases e1; cases e2
              exact absurd ((noDup_iff _).mpr hd') hd

theorem normalise_eq (index : String) (ti : Option String) (f : Frame) (h2 : ti ≠ some "instance_id") :
    Spec.normalise index ti f = match ti with
      | none => f.rename index "instance_id"
      | some t => (f.rename index "instance_id").rename t "time" := by
  cases ti with
  | none =>
    simp only [Spec.normalise, Frame.rename]
    apply List.map_congr_left; intro c _; simp
  | some t =>
    simp only [Spec.normalise, Frame.rename, List.map_map]
    apply List.map_congr_left
    intro c _
    have ht : t ≠ "instance_id" := fun e => h2 (by rw [e])
    simp only [Function.comp, Option.some.injEq]
    by_cases hc : c.1 = index
    · have : ¬ "instance_id" = t := fun e => ht e.symm
      simp [hc, this]
    · by_cases hct : c.1 = t
      · have hti : ¬ t = index := fun e => hc (hct.trans e)
        simp [hct, hti]
      · have : ¬ t = c.1 := fun e => hct e.symm
        simp [hc, hct, this]

/-- C38. For an entity whose index is not called "time", whose time index is not called "instance_id" and is not the
index: a table is accepted iff it has exactly one usable id column, exactly one usable time column, and no two rows with
equal id and time; the accepted table has the two columns renamed to `instance_id` and `time` and is otherwise
unchanged, in names, order and data. -/
theorem C38_accepted_iff (index : String) (ti : Option String) (f : Frame) (hn : f.columns.Nodup)
    (h1 : index ≠ "time") (h2 : ti ≠ some "instance_id") (h3 : ti ≠ some index) (g : Frame) :
    validateCutoffTime index ti f = .ok g ↔
      Spec.OneUsable f.columns "instance_id" (some index) ∧ Spec.OneUsable f.columns "time" ti ∧
      (∀ ids ts, Spec.UsableData f "instance_id" (some index) ids → Spec.UsableData f "time" ti ts →
        (ids.zip ts).Nodup) ∧
      g = Spec.normalise index ti f := by
  have hit : ("instance_id" : String) ≠ "time" := by decide
  by_cases hid : Spec.OneUsable f.columns "instance_id" (some index)
  rotate_left
  · -- not exactly one id column
    have hL : ¬ (∃ g, validateCutoffTime index ti f = .ok g) := by
      rintro ⟨g, hg⟩
      simp only [Spec.OneUsable] at hid
      unfold validateCutoffTime at hg
      split at hg
      · cases hg
      · rename_i hc
        simp only [Bool.and_eq_true, Bool.not_eq_true', List.contains_iff_mem, ← Bool.not_eq_true, not_and,
          Classical.not_not] at hc
        have hne : index ≠ "instance_id" := by
          rintro rfl
          simp only [if_true] at hid
          exact hid (hc hid)
        have hne' : ¬ index = "instance_id" := hne
        simp only [hne', if_false] at hid
        have hi : "instance_id" ∈ f.columns := by
          by_cases h : "instance_id" ∈ f.columns
          · exact h
          · exact absurd (.inr ⟨h, hc h⟩) hid
        have hx : index ∈ f.columns := by
          by_cases h : index ∈ f.columns
          · exact h
          · exact absurd (.inl ⟨hi, h⟩) hid
        have hi' : f.columns.contains "instance_id" = true := List.contains_iff_mem.mpr hi
        simp only [hi', if_true] at hg
        split at hg
        · cases hg
        · rename_i f₂ hf₂
          unfold renameTime at hf₂
          obtain ⟨_, hno, _⟩ := (validateTail_ok index ti f₂ g).mp hg
          apply hno
          have hmem : ∀ c, c ∈ f.columns → c ≠ "time" → ti ≠ some c → c ∈ f₂.columns := by
            intro c hc hct hcti
            split at hf₂
            · cases hf₂; exact hc
            · cases ti with
              | none => cases hf₂; exact hc
              | some t =>
                simp only at hf₂
                split at hf₂
                · cases hf₂
                · cases hf₂
                  exact (mem_columns_rename _ _ _ _).mpr (.inl ⟨hc, fun e => hcti (by rw [e])⟩)
          exact ⟨hmem _ hi hit h2, hmem _ hx h1 h3, fun e => hne e.symm⟩
    constructor
    · intro h; exact absurd ⟨g, h⟩ hL
    · rintro ⟨h, _⟩; exact absurd h hid
  -- exactly one id column: the first renaming is uniform
  have hf1 : (if f.columns.contains "instance_id" then f else f.rename index "instance_id") =
      f.rename index "instance_id" := by
    by_cases hc : "instance_id" ∈ f.columns
    · rw [if_pos (List.contains_iff_mem.mpr hc)]
      by_cases he : index = "instance_id"
      · rw [he, rename_self]
      · simp only [Spec.OneUsable, he, if_false] at hid
        rcases hid with h | h
        · rw [rename_absent _ _ _ h.2]
        · exact absurd hc h.1
    · rw [if_neg (fun h => hc (List.contains_iff_mem.mp h))]
  have hstart : ¬ ((!f.columns.contains "instance_id" && !f.columns.contains index) = true) := by
    simp only [Bool.and_eq_true, Bool.not_eq_true', ← Bool.not_eq_true, List.contains_iff_mem]
    rintro ⟨ha, hb⟩
    simp only [Spec.OneUsable] at hid
    split at hid
    · exact ha hid
    · rcases hid with h | h
      · exact ha h.1
      · exact hb h.2
  have hn1 : (f.rename index "instance_id").columns.Nodup := by
    by_cases he : index = "instance_id"
    · rw [he, rename_self]; exact hn
    · simp only [Spec.OneUsable, he, if_false] at hid
      rcases hid with h | h
      · rw [rename_absent _ _ _ h.2]; exact hn
      · exact nodup_rename _ _ _ hn h.1
  have hm1 : ∀ c, c ≠ "instance_id" → c ≠ index → (c ∈ (f.rename index "instance_id").columns ↔ c ∈ f.columns) := by
    intro c hc hci
    rw [mem_columns_rename]
    constructor
    · rintro (h | h)
      · exact h.1
      · exact absurd h.1 hc
    · intro h; exact .inl ⟨h, hci⟩
  have hidx1 : index ≠ "instance_id" → index ∉ (f.rename index "instance_id").columns := by
    intro he h
    rcases (mem_columns_rename _ _ _ _).mp h with h | h
    · exact h.2 rfl
    · exact he h.1
  have hid1 : ∀ d, ("instance_id", d) ∈ f.rename index "instance_id" ↔
      Spec.UsableData f "instance_id" (some index) d := by
    intro d
    rw [mem_rename]
    simp only [Spec.UsableData]
    by_cases he : index = "instance_id"
    · subst he; simp
    · simp only [Spec.OneUsable, he, if_false] at hid
      have he' : ("instance_id" : String) ≠ index := fun e => he e.symm
      constructor
      · rintro (h | h)
        · exact .inl h.1
        · rcases hid with hh | hh
          · exact absurd ((mem_columns _ _).mpr ⟨d, h.2⟩) hh.2
          · exact .inr ⟨hh.1, index, rfl, h.2⟩
      · rintro (h | ⟨_, o, ho, h⟩)
        · exact .inl ⟨h, he'⟩
        · cases ho; exact .inr ⟨trivial, h⟩
  have ht1 : ∀ c d, c ≠ "instance_id" → c ≠ index → ((c, d) ∈ f.rename index "instance_id" ↔ (c, d) ∈ f) := by
    intro c d hc hci
    rw [mem_rename]
    constructor
    · rintro (h | h)
      · exact h.1
      · exact absurd h.1 hc
    · intro h; exact .inl ⟨h, hci⟩
  unfold validateCutoffTime
  rw [if_neg hstart, hf1]
  generalize hf1e : f.rename index "instance_id" = f₁ at *
  have htime1 : "time" ∈ f₁.columns ↔ "time" ∈ f.columns := hm1 "time" (fun e => hit e.symm) (fun e => h1 e.symm)
  have hnorm : Spec.normalise index ti f = match ti with
      | none => f₁
      | some t => f₁.rename t "time" := by
    rw [normalise_eq index ti f h2]
    cases ti <;> simp [hf1e]
  by_cases htu : Spec.OneUsable f.columns "time" ti
  rotate_left
  · constructor
    rotate_left
    · rintro ⟨_, h, _⟩; exact absurd h htu
    intro hg
    exfalso
    cases ti with
    | none =>
      simp only [Spec.OneUsable] at htu
      have hc : f₁.columns.contains "time" = false := by
        rw [← Bool.not_eq_true, List.contains_iff_mem, htime1]; exact htu
      simp only [renameTime, hc] at hg
      obtain ⟨_, _, _, ids, ts, _, e, _⟩ := (validateTail_ok index none f₁ g).mp hg
      exact htu (htime1.mp ((mem_columns _ _).mpr ⟨ts, (col?_eq_some _ hn1 _ _).mp e⟩))
    | some t =>
      have hti : t ≠ "instance_id" := fun e => h2 (by rw [e])
      have htx : t ≠ index := fun e => h3 (by rw [e])
      have ht1' := hm1 t hti htx
      simp only [Spec.OneUsable] at htu
      by_cases htt : t = "time"
      · subst htt
        simp only [if_true] at htu
        have hc : f₁.columns.contains "time" = false := by
          rw [← Bool.not_eq_true, List.contains_iff_mem, htime1]; exact htu
        simp only [renameTime, hc] at hg
        cases hg
      · simp only [htt, if_false] at htu
        by_cases hc : "time" ∈ f.columns
        · have hc' : f₁.columns.contains "time" = true := List.contains_iff_mem.mpr (htime1.mpr hc)
          simp only [renameTime, hc', if_true] at hg
          obtain ⟨_, _, hno, _⟩ := (validateTail_ok index _ f₁ g).mp hg
          have htc : t ∈ f.columns := by
            by_cases h : t ∈ f.columns
            · exact h
            · exact absurd (.inl ⟨hc, h⟩) htu
          exact hno ⟨htime1.mpr hc, t, rfl, ht1'.mpr htc, htt⟩
        · have hc' : f₁.columns.contains "time" = false := by
            rw [← Bool.not_eq_true, List.contains_iff_mem, htime1]; exact hc
          have htc : f₁.columns.contains t = false := by
            rw [← Bool.not_eq_true, List.contains_iff_mem, ht1']
            intro h; exact htu (.inr ⟨hc, h⟩)
          simp only [renameTime, hc', htc] at hg
          cases hg
  -- both usable: the second renaming is uniform too
  have key : ∃ f₂, renameTime ti f₁ = .ok f₂ ∧ f₂ = Spec.normalise index ti f ∧ f₂.columns.Nodup ∧
      (∀ t, ti = some t → t ≠ "time" → t ∉ f₂.columns) ∧
      (index ≠ "instance_id" → index ∉ f₂.columns) ∧
      (∀ d, ("instance_id", d) ∈ f₂ ↔ ("instance_id", d) ∈ f₁) ∧
      (∀ d, ("time", d) ∈ f₂ ↔ Spec.UsableData f "time" ti d) := by
    have hU : ∀ d, "time" ∈ f.columns → (("time", d) ∈ f₁ ↔ Spec.UsableData f "time" ti d) := by
      intro d hc
      rw [ht1 "time" d (fun e => hit e.symm) (fun e => h1 e.symm)]
      simp only [Spec.UsableData]
      constructor
      · exact .inl
      · rintro (h | h)
        · exact h
        · exact absurd hc h.1
    cases ti with
    | none =>
      simp only [Spec.OneUsable] at htu
      refine ⟨f₁, by simp [renameTime], by rw [hnorm], hn1, by simp, hidx1, fun _ => Iff.rfl, fun d => hU d htu⟩
    | some t =>
      have hti : t ≠ "instance_id" := fun e => h2 (by rw [e])
      have htx : t ≠ index := fun e => h3 (by rw [e])
      have htc := hm1 t hti htx
      simp only [Spec.OneUsable] at htu
      by_cases hc : "time" ∈ f.columns
      · have hc' : f₁.columns.contains "time" = true := List.contains_iff_mem.mpr (htime1.mpr hc)
        refine ⟨f₁, by rw [renameTime, if_pos hc'], ?_, hn1, ?_, hidx1, fun _ => Iff.rfl, fun d => hU d hc⟩
        · rw [hnorm]
          by_cases htt : t = "time"
          · simp only [htt, rename_self]
          · simp only [htt, if_false] at htu
            rcases htu with h | h
            · simp only; rw [rename_absent]; rw [htc]; exact h.2
            · exact absurd hc h.1
        · intro t' e htt
          cases e
          simp only [htt, if_false] at htu
          rcases htu with h | h
          · rw [htc]; exact h.2
          · exact absurd hc h.1
      · have hc' : f₁.columns.contains "time" = false := by
          rw [← Bool.not_eq_true, List.contains_iff_mem, htime1]; exact hc
        have htt : t ≠ "time" := by
          rintro rfl
          simp only [if_true] at htu
          exact hc htu
        simp only [htt, if_false] at htu
        have htm : t ∈ f.columns := by
          rcases htu with h | h
          · exact absurd h.1 hc
          · exact h.2
        have htc' : f₁.columns.contains t = true := List.contains_iff_mem.mpr (htc.mpr htm)
        refine ⟨f₁.rename t "time", ?_, by rw [hnorm], nodup_rename _ _ _ hn1 (fun h => hc (htime1.mp h)), ?_, ?_, ?_, ?_⟩
        · simp only [renameTime, hc', htc']; rfl
        · intro t' e _ h
          cases e
          rcases (mem_columns_rename _ _ _ _).mp h with h | h
          · exact h.2 rfl
          · exact htt h.1
        · intro he h
          rcases (mem_columns_rename _ _ _ _).mp h with h | h
          · exact hidx1 he h.1
          · exact h1 h.1
        · intro d
          rw [mem_rename]
          constructor
          · rintro (h | h)
            · exact h.1
            · exact absurd h.1 hit
          · intro h; exact .inl ⟨h, fun e => hti e.symm⟩
        · intro d
          rw [mem_rename]
          simp only [Spec.UsableData]
          constructor
          · rintro (h | h)
            · exact absurd ((mem_columns _ _).mpr ⟨d, h.1⟩) (fun h' => hc (htime1.mp h'))
            · exact .inr ⟨hc, t, rfl, (ht1 t d hti htx).mp h.2⟩
          · rintro (h | ⟨_, o, ho, h⟩)
            · exact absurd ((mem_columns _ _).mpr ⟨d, h⟩) hc
            · cases ho; exact .inr ⟨trivial, (ht1 t d hti htx).mpr h⟩
  obtain ⟨f₂, hf₂, hnrm, hn2, hnt, hni, hi2, ht2⟩ := key
  rw [hf₂]
  simp only
  rw [validateTail_ok, ← hnrm]
  constructor
  · rintro ⟨rfl, _, _, ids, ts, e1, e2, hd⟩
    refine ⟨hid, htu, ?_, rfl⟩
    intro ids' ts' hi' ht'
    have hi'' := (col?_eq_some _ hn2 _ _).mpr ((hi2 ids').mpr ((hid1 ids').mpr hi'))
    have ht'' := (col?_eq_some _ hn2 _ _).mpr ((ht2 ts').mpr ht')
    rw [e1] at hi''; rw [e2] at ht''
    cases hi''; cases ht''
    exact hd
  · rintro ⟨_, _, hd, rfl⟩
    have hidE : ∃ ids, Spec.UsableData f "instance_id" (some index) ids := by
      simp only [Spec.OneUsable] at hid
      simp only [Spec.UsableData]
      split at hid
      · obtain ⟨d, h⟩ := (mem_columns _ _).mp hid; exact ⟨d, .inl h⟩
      · rcases hid with h | h
        · obtain ⟨d, h⟩ := (mem_columns _ _).mp h.1; exact ⟨d, .inl h⟩
        · obtain ⟨d, h'⟩ := (mem_columns _ _).mp h.2; exact ⟨d, .inr ⟨h.1, _, rfl, h'⟩⟩
    have htE : ∃ ts, Spec.UsableData f "time" ti ts := by
      simp only [Spec.OneUsable] at htu
      simp only [Spec.UsableData]
      cases ti with
      | none => obtain ⟨d, h⟩ := (mem_columns _ _).mp htu; exact ⟨d, .inl h⟩
      | some t =>
        simp only at htu
        split at htu
        · obtain ⟨d, h⟩ := (mem_columns _ _).mp htu; exact ⟨d, .inl h⟩
        · rcases htu with h | h
          · obtain ⟨d, h⟩ := (mem_columns _ _).mp h.1; exact ⟨d, .inl h⟩
          · obtain ⟨d, h'⟩ := (mem_columns _ _).mp h.2; exact ⟨d, .inr ⟨h.1, _, rfl, h'⟩⟩
    obtain ⟨ids, hids⟩ := hidE
    obtain ⟨ts, hts⟩ := htE
    refine ⟨rfl, ?_, ?_, ids, ts, (col?_eq_some _ hn2 _ _).mpr ((hi2 _).mpr ((hid1 _).mpr hids)),
      (col?_eq_some _ hn2 _ _).mpr ((ht2 _).mpr hts), hd _ _ hids hts⟩
    · rintro ⟨_, h, hne⟩; exact hni (fun e => hne e.symm) h
    · rintro ⟨_, t, ht, h, hne⟩; exact hnt t ht hne h

/-- C38. Lists are rejected, and a single value is accepted as it is. -/
theorem C38_other_arguments (index : String) (ti : Option String) (v : Val) :
    validateCutoffArg index ti .pyList = .error .typeError ∧
    validateCutoffArg index ti (.single v) = .ok (.single v) := ⟨rfl, rfl⟩

/-- C38. Cutoff times of a type other than the entity set's time type are rejected, and only those. -/
theorem C38_time_type (kind : TimeKind) (es : Option TimeKind) (hes : es ≠ some .neither) :
    checkCutoffTimeType kind es = .ok () ↔ es = none ∨ es = some kind := by
  cases kind <;> cases es <;> simp [checkCutoffTimeType] <;> rename_i k <;> cases k <;> simp_all

/-- C38 fails for an entity whose index column is called "time": a table with one id column and one time column is
rejected, and no table at all is accepted. -/
theorem C38_index_called_time (ti : Option String) (f : Frame) : ¬ ∃ g, validateCutoffTime "time" ti f = .ok g := by
  rintro ⟨g, hg⟩
  unfold validateCutoffTime at hg
  split at hg
  · cases hg
  · split at hg
    · cases hg
    · rename_i f₂ hf₂
      obtain ⟨_, hno, _, ids, ts, e1, e2, _⟩ := (validateTail_ok _ ti f₂ g).mp hg
      have hmem := fun c d => col?_mem_columns f₂ c d
      exact hno ⟨hmem _ _ e1, hmem _ _ e2, by decide⟩

example : validateCutoffTime "cid" (some "t") [("label", [.num 5]), ("t", [.num 1]), ("cid", [.num 7])] =
    .ok [("label", [.num 5]), ("time", [.num 1]), ("instance_id", [.num 7])] := by decide
example : Spec.OneUsable ["label", "t", "cid"] "instance_id" (some "cid") := by
  simp [Spec.OneUsable]

/-! ### C57: evenly spaced cutoffs -/

/-- C57. Window size and number: for each instance, exactly `num` times, `window` apart, the last being the cutoff. -/
theorem C57_window_and_number (stop w : Int) (n : Nat) (hw : 0 < w) :
    ∃ ts, cutoffsFor stop (some w) (some n) none = .ok ts ∧ ts.length = n ∧ Spec.Spaced w ts ∧
      (0 < n → ts.getLast? = some stop) := by
  refine ⟨rangeToEnd stop n w, by simp [cutoffsFor, hw], by simp [rangeToEnd], ?_, ?_⟩
  · rw [rangeToEnd_eq]; exact spaced_map_range _ _ _
  · intro hn
    obtain ⟨m, rfl⟩ : ∃ m, n = m + 1 := ⟨n - 1, by omega⟩
    simp [rangeToEnd, List.range_succ, List.getLast?_append]

/-- C57. Number and start: `num ≥ 2` times ending at the cutoff and evenly spaced; the first is the start when the span
divides evenly, and otherwise less than `num - 1` nanoseconds after it. -/
theorem C57_number_and_start (stop s : Int) (n : Nat) (hn : 2 ≤ n) (hs : (n : Int) - 1 ≤ stop - s) :
    ∃ ts w first, cutoffsFor stop none (some n) (some s) = .ok ts ∧ ts.length = n ∧ 0 < w ∧ Spec.Spaced w ts ∧
      ts.getLast? = some stop ∧ ts.head? = some first ∧ s ≤ first ∧ first < s + ((n : Int) - 1) ∧
      (((n : Int) - 1) ∣ (stop - s) → first = s) := by
  have hpos : 0 ≤ stop - s := by omega
  have hd : (stop - s).tdiv ((n : Int) - 1) = (stop - s) / ((n : Int) - 1) := Int.tdiv_eq_ediv_of_nonneg hpos
  have hw : 0 < (stop - s) / ((n : Int) - 1) := by
    have : 1 ≤ (stop - s) / ((n : Int) - 1) := (Int.le_ediv_iff_mul_le (by omega)).mpr (by omega)
    omega
  obtain ⟨ts, h1, h2, h3, h4⟩ := C57_window_and_number stop _ n hw
  have hts : ts = rangeToEnd stop n ((stop - s) / ((n : Int) - 1)) := by
    simp only [cutoffsFor, hw, if_true, Except.ok.injEq] at h1; exact h1.symm
  refine ⟨ts, _, stop - (stop - s) / ((n : Int) - 1) * ((n : Int) - 1), ?_, h2, hw, h3, h4 (by omega), ?_, ?_, ?_, ?_⟩
  · simp only [cutoffsFor, hd]
    rw [if_neg (by omega), if_pos hw, hts]
  · rw [hts, rangeToEnd]
    obtain ⟨m, rfl⟩ : ∃ m, n = m + 1 := ⟨n - 1, by omega⟩
    rw [List.range_succ_eq_map]
    simp
  · have := Int.ediv_mul_le (stop - s) (b := (n : Int) - 1) (by omega)
    omega
  · have := Int.lt_ediv_add_one_mul_self (stop - s) (b := (n : Int) - 1) (by omega)
    rw [Int.add_mul] at this
    omega
  · intro hdv
    have := Int.ediv_mul_cancel hdv
    omega

/-- C57. Window size and start: the first time is the start, the times are `window` apart and run as far as they can
without passing the cutoff. -/
theorem C57_window_and_start (stop s w : Int) (hw : 0 < w) (hs : s ≤ stop) :
    ∃ ts last, cutoffsFor stop (some w) none (some s) = .ok ts ∧ ts.head? = some s ∧ Spec.Spaced w ts ∧
      ts.getLast? = some last ∧ last ≤ stop ∧ stop < last + w := by
  refine ⟨rangeFromStart s stop w, s + w * ((stop - s) / w), by simp [cutoffsFor, hw], ?_, ?_, ?_, ?_, ?_⟩
  · unfold rangeFromStart
    rw [if_neg (by omega), List.range_succ_eq_map]
    simp
  · unfold rangeFromStart
    rw [if_neg (by omega)]
    exact spaced_map_range _ _ _
  · unfold rangeFromStart
    rw [if_neg (by omega), List.range_succ, List.map_append]
    have : 0 ≤ (stop - s) / w := Int.ediv_nonneg (by omega) (by omega)
    simp [List.getLast?_append]
    rw [Int.max_eq_left this]
  · have := Int.ediv_mul_le (stop - s) (b := w) (by omega)
    rw [Int.mul_comm] at this
    omega
  · have := Int.lt_ediv_add_one_mul_self (stop - s) (b := w) hw
    rw [Int.add_mul, Int.mul_comm] at this
    omega

/-- C57 fails: with window and start the cutoff itself is produced only when the window divides the span. -/
theorem C57_cutoff_missing : cutoffsFor 10 (some 4) none (some 0) = .ok [0, 4, 8] := by decide

/-- C57. All three parameters, only a window, only a start, or none: rejected for every non-empty input. -/
theorem C57_wrong_parameters {ι : Type} (i : ι) (ids : List ι) (c : Int) (cutoffs : List Int)
    (w : Int) (n : Nat) (s : Int) (ss : List Int) :
    makeTemporalCutoffs (i :: ids) (c :: cutoffs) (some w) (some n) (some (s :: ss)) = .error .valueError ∧
    makeTemporalCutoffs (i :: ids) (c :: cutoffs) (some w) none none = .error .valueError ∧
    makeTemporalCutoffs (i :: ids) (c :: cutoffs) none none (some (s :: ss)) = .error .typeError ∧
    makeTemporalCutoffs (i :: ids) (c :: cutoffs) none none none = .error .valueError := by
  refine ⟨rfl, rfl, rfl, rfl⟩

/-- C57 fails: giving only a number is not rejected; the times are then one day apart. -/
theorem C57_only_number_accepted (c : Int) (n : Nat) :
    cutoffsFor c none (some n) none = cutoffsFor c (some dayNs) (some n) none := by
  simp [cutoffsFor, dayNs]

theorem temporalLoop_none {ι : Type} (window : Option Int) (num : Option Nat) (rows : List (ι × Int))
    (out : List (ι × Int)) :
    temporalLoop window num rows none = .ok out ↔
      ∃ parts : List (List Int), rows.map (fun r => cutoffsFor r.2 window num none) = parts.map .ok ∧
        out = ((rows.zip parts).map fun rp => rp.2.map fun t => (rp.1.1, t)).flatten := by
  induction rows generalizing out with
  | nil =>
    simp only [temporalLoop, Except.ok.injEq, List.map_nil, List.zip_nil_left, List.flatten_nil]
    constructor
    · rintro rfl; exact ⟨[], rfl, rfl⟩
    · rintro ⟨_, _, rfl⟩; rfl
  | cons r rows ih =>
    obtain ⟨i, t⟩ := r
    simp only [temporalLoop, bind, Except.bind]
    cases h : cutoffsFor t window num none with
    | error e =>
      simp only [List.map_cons, h]
      constructor
      · intro h'; cases h'
      · rintro ⟨parts, hp, _⟩
        cases parts with
        | nil => simp at hp
        | cons p ps => simp at hp
    | ok ts =>
      simp only
      cases h2 : temporalLoop window num rows none with
      | error e =>
        simp only
        constructor
        · intro h'; cases h'
        · rintro ⟨parts, hp, _⟩
          cases parts with
          | nil => simp at hp
          | cons p ps =>
            simp only [List.map_cons, List.cons.injEq] at hp
            have := (ih _).mpr ⟨ps, hp.2, rfl⟩
            rw [h2] at this; cases this
      | ok more =>
        simp only [pure, Except.pure, Except.ok.injEq]
        constructor
        · rintro rfl
          obtain ⟨ps, hp, he⟩ := (ih more).mp h2
          exact ⟨ts :: ps, by simp [h, hp], by simp [he]⟩
        · rintro ⟨parts, hp, rfl⟩
          cases parts with
          | nil => simp at hp
          | cons p ps =>
            simp only [List.map_cons, List.cons.injEq, h, Except.ok.injEq] at hp
            obtain ⟨rfl, hp⟩ := hp
            have := (ih _).mpr ⟨ps, hp, rfl⟩
            rw [h2] at this
            cases this
            simp

/-- C57. With a window and a number, the whole output is, instance after instance in the given order, the times of that
instance labelled with its id. -/
theorem C57_all_instances {ι : Type} (ids : List ι) (cutoffs : List Int) (w : Int) (n : Nat) (hw : 0 < w)
    (hne : ids.zip cutoffs ≠ []) :
    makeTemporalCutoffs ids cutoffs (some w) (some n) none =
      .ok ((ids.zip cutoffs).flatMap fun ic => (rangeToEnd ic.2 n w).map fun t => (ic.1, t)) := by
  have : (ids.zip cutoffs).isEmpty = false := by
    cases h : ids.zip cutoffs with
    | nil => exact absurd h hne
    | cons => rfl
  simp only [makeTemporalCutoffs, this]
  show temporalLoop (some w) (some n) (ids.zip cutoffs) none = _
  rw [temporalLoop_none]
  refine ⟨(ids.zip cutoffs).map fun ic => rangeToEnd ic.2 n w, ?_, ?_⟩
  · simp [cutoffsFor, hw]
  · generalize ids.zip cutoffs = rows
    induction rows with
    | nil => rfl
    | cons r rows ih => simp [ih]

/-- C57. With start times, the whole output is, instance after instance, the times computed for that instance from its own
cutoff and its own start, labelled with its id; it exists exactly when there is a start for every instance and every
instance's parameters are acceptable. -/
theorem C57_all_instances_start {ι : Type} (ids : List ι) (cutoffs starts : List Int) (window : Option Int)
    (num : Option Nat) (hne : ids.zip cutoffs ≠ []) (hboth : ¬ (window.isSome ∧ num.isSome)) (out : List (ι × Int)) :
    makeTemporalCutoffs ids cutoffs window num (some starts) = .ok out ↔
      (ids.zip cutoffs).length ≤ starts.length ∧
      ∃ parts : List (List Int),
        ((ids.zip cutoffs).zip starts).map (fun r => cutoffsFor r.1.2 window num (some r.2)) = parts.map .ok ∧
        out = (((ids.zip cutoffs).zip parts).map fun rp => rp.2.map fun t => (rp.1.1, t)).flatten := by
  have h1 : (ids.zip cutoffs).isEmpty = false := by
    cases h : ids.zip cutoffs with
    | nil => exact absurd h hne
    | cons => rfl
  have h2 : (window.isSome && num.isSome && (some starts).isSome) = false := by
    rw [← Bool.not_eq_true]
    simpa using hboth
  simp only [makeTemporalCutoffs, h1, h2]
  show temporalLoop window num (ids.zip cutoffs) (some starts) = .ok out ↔ _
  generalize ids.zip cutoffs = rows
  clear h1 h2 hne
  induction rows generalizing starts out with
  | nil =>
    simp only [temporalLoop, Except.ok.injEq, List.zip_nil_left, List.map_nil, List.length_nil, Nat.zero_le, true_and,
      List.flatten_nil]
    constructor
    · rintro rfl; exact ⟨[], rfl, rfl⟩
    · rintro ⟨_, _, rfl⟩; rfl
  | cons r rows ih =>
    obtain ⟨i, t⟩ := r
    cases starts with
    | nil => simp [temporalLoop]
    | cons s ss =>
      simp only [temporalLoop, bind, Except.bind, List.zip_cons_cons, List.map_cons, List.length_cons,
        Nat.add_le_add_iff_right]
      cases h : cutoffsFor t window num (some s) with
      | error e =>
        simp only
        constructor
        · intro h'; cases h'
        · rintro ⟨_, parts, hp, _⟩
          cases parts <;> simp at hp
      | ok ts =>
        simp only
        cases h2 : temporalLoop window num rows (some ss) with
        | error e =>
          simp only
          constructor
          · intro h'; cases h'
          · rintro ⟨hl, parts, hp, _⟩
            cases parts with
            | nil => simp at hp
            | cons p ps =>
              simp only [List.map_cons, List.cons.injEq] at hp
              have := (ih ss _).mpr ⟨hl, ps, hp.2, rfl⟩
              rw [h2] at this; cases this
        | ok more =>
          simp only [pure, Except.pure, Except.ok.injEq]
          constructor
          · rintro rfl
            obtain ⟨hl, ps, hp, he⟩ := (ih ss more).mp h2
            exact ⟨hl, ts :: ps, by simp [hp], by simp [he]⟩
          · rintro ⟨hl, parts, hp, rfl⟩
            cases parts with
            | nil => simp at hp
            | cons p ps =>
              simp only [List.map_cons, List.cons.injEq, Except.ok.injEq] at hp
              obtain ⟨rfl, hp⟩ := hp
              have := (ih ss _).mpr ⟨hl, ps, hp, rfl⟩
              rw [h2] at this
              cases this
              simp

example : makeTemporalCutoffs ["a", "b"] [10, 20] none (some 3) (some [0, 10]) =
    .ok [("a", 0), ("a", 5), ("a", 10), ("b", 10), ("b", 15), ("b", 20)] := by decide
example : makeTemporalCutoffs ["a", "b"] [10, 20] (some 3) (some 3) none =
    .ok [("a", 4), ("a", 7), ("a", 10), ("b", 14), ("b", 17), ("b", 20)] := by decide
example : cutoffsFor 10 none (some 3) (some 0) = .ok [0, 5, 10] := by decide

/-! ### C59: ordinals and time units -/

/-- C59. The ordinal of every non-negative integer: the number followed by the English suffix for its last two digits. -/
theorem C59_ordinal (hundreds tens ones : Nat) (h1 : ones < 10) (h2 : tens < 10) :
    convertToNth ((100 * hundreds + 10 * tens + ones : Nat) : Int) =
      Int.repr ((100 * hundreds + 10 * tens + ones : Nat) : Int) ++ Spec.ordinalSuffix tens ones := by
  have e10 : ((100 * hundreds + 10 * tens + ones : Nat) : Int) % 10 = ones := by omega
  have e100 : ((100 * hundreds + 10 * tens + ones : Nat) : Int) % 100 = 10 * tens + ones := by omega
  unfold convertToNth Spec.ordinalSuffix
  simp only [e10, e100]
  generalize Int.repr ((100 * hundreds + 10 * tens + ones : Nat) : Int) = r
  by_cases ht : tens = 1
  · subst ht
    rw [if_neg (by omega), if_neg (by omega), if_neg (by omega)]; simp
  · simp only [ht, if_false]
    by_cases o1 : ones = 1
    · subst o1; rw [if_pos (by omega)]; rfl
    · rw [if_neg (by omega)]
      by_cases o2 : ones = 2
      · subst o2; rw [if_pos (by omega)]; rfl
      · rw [if_neg (by omega)]
        by_cases o3 : ones = 3
        · subst o3; rw [if_pos (by omega)]; rfl
        · rw [if_neg (by omega)]
          split <;> simp_all

example : convertToNth 111 = "111th" ∧ convertToNth 22 = "22nd" ∧ convertToNth 1 = "1st" := by decide

/-- C59. Conversion divides by the unit's length, and knows exactly the eight documented units. -/
theorem C59_convert_units (secs : Rat) (unit : String) :
    (∃ r, convertTimeUnits secs unit = .ok r) ↔
      unit ∈ ["years", "months", "days", "hours", "minutes", "seconds", "milliseconds", "nanoseconds"] := by
  have key : ∀ (d : Dict Rat), (∃ v, d.get? unit = some v) ↔ unit ∈ d.map Prod.fst := by
    intro d
    induction d with
    | nil => simp [Dict.get?]
    | cons x d ih =>
      obtain ⟨k, v⟩ := x
      simp only [Dict.get?, List.lookup_cons, List.map_cons, List.mem_cons] at ih ⊢
      by_cases h : unit = k
      · subst h; simp
      · have h' : (unit == k) = false := by simpa using h
        simp only [h', h, false_or]; exact ih
  rw [show ["years", "months", "days", "hours", "minutes", "seconds", "milliseconds", "nanoseconds"] =
    unitDivs.map Prod.fst from rfl, ← key unitDivs]
  unfold convertTimeUnits
  cases Dict.get? unitDivs unit with
  | none => simp
  | some v => simp

/-- C59. Unknown units are rejected with `ValueError`. -/
theorem C59_unknown_unit (secs : Rat) (unit : String)
    (h : unit ∉ ["years", "months", "days", "hours", "minutes", "seconds", "milliseconds", "nanoseconds"]) :
    convertTimeUnits secs unit = .error .valueError := by
  cases hc : convertTimeUnits secs unit with
  | ok r => exact absurd ((C59_convert_units secs unit).mp ⟨r, hc⟩) h
  | error e =>
    unfold convertTimeUnits at hc
    split at hc
    · exact hc.symm
    · cases hc

/-- C59. Units up to days are consistent: converting to a coarser unit divides by the usual factor. -/
theorem C59_units_consistent (secs : Rat) :
    convertTimeUnits secs "minutes" = .ok (secs / 60) ∧
    convertTimeUnits secs "hours" = .ok (secs / (60 * 60)) ∧
    convertTimeUnits secs "days" = .ok (secs / (24 * 60 * 60)) ∧
    convertTimeUnits secs "seconds" = .ok (secs / 1) ∧
    convertTimeUnits secs "milliseconds" = .ok (secs / (1 / 1000)) ∧
    convertTimeUnits secs "nanoseconds" = .ok (secs / (1 / 1000000000)) := by
  refine ⟨rfl, ?_, ?_, rfl, rfl, rfl⟩
  · show Except.ok (secs / 3600) = _
    rw [show (60 * 60 : Rat) = 3600 by decide +kernel]
  · show Except.ok (secs / 86400) = _
    rw [show (24 * 60 * 60 : Rat) = 86400 by decide +kernel]

/-- C59 fails for years and months: a year in seconds is one year but not twelve months. -/
theorem C59_year_not_twelve_months :
    convertTimeUnits 31540000 "years" = .ok 1 ∧ convertTimeUnits 31540000 "months" ≠ .ok 12 := by
  decide +kernel

end FT
