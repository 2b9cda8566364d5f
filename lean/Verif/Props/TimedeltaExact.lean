import Verif.Spec.TimedeltaExact
import Verif.Lemmas.Timedelta
import Verif.Lemmas.Util
import Verif.Props.Util
/-!
# C18, C17, C57: exact statements
-/
namespace FT
open Timedelta

/-! ### dictionaries built by assignment -/

theorem dictSet_map (ks : List String) (g : String → Int) (c : String) (v : Int) (hn : ks.Nodup) (hc : c ∈ ks) :
    Dict.set (ks.map fun k => (k, g k)) c v = ks.map fun k => (k, if k = c then v else g k) := by
  induction ks with
  | nil => cases hc
  | cons k ks ih =>
    simp only [List.nodup_cons] at hn
    simp only [List.map_cons, Dict.set]
    by_cases e : k = c
    · subst e
      simp only [if_true, List.cons.injEq, true_and]
      refine List.map_congr_left fun x hx => ?_
      rw [if_neg (fun h : x = k => hn.1 (by rw [← h]; exact hx))]
    · rw [if_neg e, if_neg e, ih hn.2 (by simpa [Ne.symm e, eq_comm] using List.mem_of_ne_of_mem (Ne.symm e) hc)]

theorem nodup_dedupStr (l : List String) : l.eraseDups.Nodup := by
  have key : ∀ n (l : List String), l.length ≤ n → l.eraseDups.Nodup := by
    intro n
    induction n with
    | zero => intro l h; rw [List.length_eq_zero_iff.mp (Nat.le_zero.mp h)]; simp
    | succ n ih =>
      intro l h
      cases l with
      | nil => simp
      | cons a l =>
        rw [List.eraseDups_cons, List.nodup_cons]
        refine ⟨fun hm => ?_, ih _ (Nat.le_trans (List.length_filter_le _ _) (by simpa using h))⟩
        simpa using (List.mem_filter.mp (List.mem_eraseDups.mp hm)).2
  exact key _ l (Nat.le_refl _)

/-- Assigning the entries of a list in turn. -/
theorem foldl_dictSet (l : List (String × Int)) :
    l.foldl (fun acc uv => Dict.set acc uv.1 uv.2) [] =
      ((l.map Prod.fst).eraseDups).map fun c =>
        (c, (((l.filter fun uv => uv.1 == c).getLast?).map Prod.snd).getD 0) := by
  have key : ∀ l' : List (String × Int), l'.reverse.foldl (fun acc uv => Dict.set acc uv.1 uv.2) [] =
      ((l'.reverse.map Prod.fst).eraseDups).map fun c =>
        (c, (((l'.reverse.filter fun uv => uv.1 == c).getLast?).map Prod.snd).getD 0) := by
    intro l'
    induction l' with
    | nil => rfl
    | cons x l' ih =>
      obtain ⟨k, v⟩ := x
      rw [List.reverse_cons, List.foldl_append, ih]
      generalize l'.reverse = m at *
      simp only [List.foldl_cons, List.foldl_nil, List.map_append, List.map_cons, List.map_nil, List.eraseDups_append]
      have hnd : ((m.map Prod.fst).eraseDups).Nodup := nodup_dedupStr _
      by_cases hk : k ∈ m.map Prod.fst
      · rw [dictSet_map _ _ _ _ hnd (List.mem_eraseDups.mpr hk)]
        have : List.removeAll [k] (m.map Prod.fst) = [] := by
          simp only [List.removeAll, List.filter_cons, List.filter_nil]
          rw [if_neg (by simp only [List.elem_eq_mem]; simpa using hk)]
        rw [this]
        simp only [List.eraseDups_nil, List.append_nil, List.map_nil]
        refine List.map_congr_left fun c _ => ?_
        simp only [List.filter_append, List.filter_cons, List.filter_nil]
        by_cases e : c = k
        · subst e; simp
        · have e' : (k == c) = false := by simpa using Ne.symm e
          simp [e, e']
      · have : List.removeAll [k] (m.map Prod.fst) = [k] := by
          simp only [List.removeAll, List.filter_cons, List.filter_nil]
          rw [if_pos (by simp only [List.elem_eq_mem]; simpa using hk)]
        rw [this, Dict.set_new _ _ _ (by
          intro h
          obtain ⟨y, hy, rfl⟩ := List.mem_map.mp h
          obtain ⟨z, hz, rfl⟩ := List.mem_map.mp hy
          exact hk (List.mem_eraseDups.mp hz))]
        have e1 : [k].eraseDups = [k] := by simp [List.eraseDups_cons]
        rw [e1]
        congr 1
        · refine List.map_congr_left fun c hc => ?_
          have hc' := List.mem_eraseDups.mp hc
          have e' : (k == c) = false := by
            have : k ≠ c := fun h => hk (h ▸ hc')
            simpa using this
          simp only [List.filter_append, List.filter_cons, List.filter_nil, e']
          simp
        · simp [List.filter_append]
  have := key l.reverse
  simpa using this

theorem unitOf_fixUnit : ∀ x ∈ Spec.documentedUnits, ∀ s ∈ x.2, Spec.unitOf s = some (fixUnit s) := by decide

theorem fixUnit_of_unitOf {s c : String} (h : Spec.unitOf s = some c) : fixUnit s = c := by
  have h' := h
  unfold Spec.unitOf at h'
  cases hf : Spec.documentedUnits.find? (fun x => x.2.contains s) with
  | none => rw [hf] at h'; cases h'
  | some x =>
    have hx := unitOf_fixUnit x (List.mem_of_find?_eq_some hf) s (by simpa using List.find?_some hf)
    rw [h] at hx
    exact (Option.some.inj hx).symm

theorem fixUnits_amounts (times : List (String × Int)) (hdoc : ∀ uv ∈ times, (Spec.unitOf uv.1).isSome) :
    fixUnits times = Spec.amounts times := by
  have e : fixUnits times = (times.map fun uv => (fixUnit uv.1, uv.2)).foldl (fun acc uv => Dict.set acc uv.1 uv.2) [] := by
    unfold fixUnits
    rw [List.foldl_map]
  have hu : ∀ uv ∈ times, Spec.unitOf uv.1 = some (fixUnit uv.1) := by
    intro uv h
    obtain ⟨c, hc⟩ := Option.isSome_iff_exists.mp (hdoc uv h)
    rw [hc, fixUnit_of_unitOf hc]
  rw [e, foldl_dictSet]
  unfold Spec.amounts
  have e1 : (times.map fun uv => (fixUnit uv.1, uv.2)).map Prod.fst = times.filterMap fun uv => Spec.unitOf uv.1 := by
    clear e hdoc
    induction times with
    | nil => rfl
    | cons x l ih =>
      rw [List.filterMap_cons, hu x (by simp)]
      simp only [List.map_cons, List.cons.injEq, true_and]
      exact ih fun uv h => hu uv (by simp [h])
  rw [e1]
  refine List.map_congr_left fun c _ => ?_
  unfold Spec.lastGiven
  have e2 : (times.filter fun uv => Spec.unitOf uv.1 == some c) = times.filter fun uv => fixUnit uv.1 == c := by
    refine List.filter_congr fun uv h => ?_
    rw [hu uv h]
    rfl
  rw [e2, List.filter_map, List.getLast?_map, Option.map_map]
  rfl

theorem amounts_units (times : List (String × Int)) :
    ∀ uv ∈ Spec.amounts times, uv.1 ∈ Spec.documentedUnits.map Prod.fst := by
  intro uv h
  obtain ⟨c, hc, rfl⟩ := List.mem_map.mp h
  obtain ⟨x, -, hx⟩ := List.mem_filterMap.mp (List.mem_eraseDups.mp hc)
  unfold Spec.unitOf at hx
  obtain ⟨y, hy, rfl⟩ := Option.map_eq_some_iff.mp hx
  exact List.mem_map.mpr ⟨y, List.mem_of_find?_eq_some hy, rfl⟩

theorem lowerReadable_documented (l : List (String × Int)) (h : ∀ uv ∈ l, uv.1 ∈ Spec.documentedUnits.map Prod.fst) :
    lowerReadableTimes l = .ok (l.map fun uv => (Spec.calendarName uv.1, uv.2)) := by
  have key : ∀ u ∈ Spec.documentedUnits.map Prod.fst,
      (readableUnits.get? u).map lower = some (Spec.calendarName u) := by decide
  induction l with
  | nil => rfl
  | cons x l ih =>
    obtain ⟨u, v⟩ := x
    obtain ⟨r, hr, hl⟩ := Option.map_eq_some_iff.mp (key u (h (u, v) (by simp)))
    simp only [lowerReadableTimes, hr, ih fun uv hm => h uv (by simp [hm]), hl, List.map_cons]
    rfl

/-- C18. The timedelta built from any dictionary of documented units, in full: which are refused, the amount of every unit
(under several spellings the last one counts), and whether it is a number of observations, an exact duration or a calendar
offset. -/
theorem C18_built (times : List (String × Int)) (hdoc : ∀ uv ∈ times, (Spec.unitOf uv.1).isSome) :
    Timedelta.make times = Spec.built times := by
  unfold make Spec.built
  simp only [fixUnits_amounts times hdoc]
  have hu := amounts_units times
  generalize Spec.amounts times = a at *
  unfold getUnitType
  have ho : (getUnits a).contains "o" = a.any (fun uv => uv.1 == "o") := by
    rw [Bool.eq_iff_iff]
    simp [getUnits]
  rw [ho]
  by_cases h : a.any (fun uv => uv.1 == "o") = true
  · rw [if_pos h, if_pos h]; rfl
  · rw [if_neg h, if_neg h]
    have hin : (∀ u ∈ Spec.documentedUnits.map Prod.fst, (Spec.calendarName u = "milliseconds" ↔ u = "ms")) := by decide
    match a, h, hu with
    | [], _, _ => rfl
    | [(c, v)], h, hu =>
      have hc := hu (c, v) (by simp)
      simp only at hc
      have hab : ∀ u ∈ Spec.documentedUnits.map Prod.fst, u ≠ "o" →
          (absoluteUnits.contains u = !decide (u ∈ ["mo", "Y"])) := by decide
      have hco : c ≠ "o" := by simpa using h
      have h1 := hab c hc hco
      simp only [isAbsolute, getUnits, hasMultipleUnits, List.map_cons, List.map_nil, List.all_cons, List.all_nil, h1]
      by_cases hm : c ∈ ["mo", "Y"]
      · rw [if_pos hm]
        have hl := lowerReadable_documented [(c, v)] hu
        simp only [hm, decide_true, Bool.not_true, Bool.false_and, Bool.false_eq_true, if_false, hl, bind, Except.bind]
        have : ¬ Spec.calendarName c = "milliseconds" := by
          rw [hin c hc]; rintro rfl; revert hm; decide
        simp [Except.map]
        rw [if_neg (fun e => this e.symm)]
      · rw [if_neg hm]
        simp [hm, Except.map]
    | x :: y :: l, h, hu =>
      have hmu : hasMultipleUnits (x :: y :: l) = true := by simp [hasMultipleUnits, getUnits]
      simp only [hmu, Bool.not_true, Bool.and_false, Bool.false_eq_true, if_false,
        lowerReadable_documented _ hu, bind, Except.bind]
      have hms' : ((x :: y :: l).map fun uv => (Spec.calendarName uv.1, uv.2)).map Prod.fst =
          (x :: y :: l).map fun uv => Spec.calendarName uv.1 := by simp
      rw [hms']
      have hc : ((x :: y :: l).map fun uv => Spec.calendarName uv.1).contains "milliseconds" =
          (x :: y :: l).any (fun uv => uv.1 == "ms") := by
        rw [Bool.eq_iff_iff]
        simp only [List.contains_iff_mem, List.mem_map, List.any_eq_true, beq_iff_eq]
        constructor
        · rintro ⟨uv, hm, e⟩; exact ⟨uv, hm, (hin _ (hu uv hm)).mp e⟩
        · rintro ⟨uv, hm, e⟩; exact ⟨uv, hm, (hin _ (hu uv hm)).mpr e⟩
      rw [hc]
      by_cases hb : (x :: y :: l).any (fun uv => uv.1 == "ms") = true
      · rw [if_pos hb, if_pos hb]; rfl
      · rw [if_neg hb, if_neg hb]; rfl

example : Spec.built [("day", 1), ("hours", 3), ("Days", 2)] =
    .ok ⟨[("d", 2), ("h", 3)], some (.relative [("days", 2), ("hours", 3)])⟩ ∧
    Spec.built [("month", 5)] = .ok ⟨[("mo", 5)], some (.relative [("months", 5)])⟩ ∧
    Spec.built [("ms", 5), ("s", 1)] = .error .typeError ∧
    Spec.built [("o", 5), ("s", 1)] = .ok ⟨[("o", 5), ("s", 1)], none⟩ := by decide

/-- C18. A window is free of observations exactly when no unit of it is a number of observations. -/
theorem C18_no_observations (times : List (String × Int)) (td : Timedelta)
    (hdoc : ∀ uv ∈ times, (Spec.unitOf uv.1).isSome) (h : Timedelta.make times = .ok td) :
    hasNoObservations td.times = true ↔ ∀ uv ∈ times, Spec.unitOf uv.1 ≠ some "o" := by
  have ht : td.times = Spec.amounts times := by
    unfold make at h
    simp only [fixUnits_amounts times hdoc] at h
    cases hg : getUnitType (Spec.amounts times) with
    | error e => rw [hg] at h; cases h
    | ok d => rw [hg] at h; cases h; rfl
  rw [ht]
  have hne : ∀ u ∈ Spec.documentedUnits.map Prod.fst, u ≠ "" := by decide
  simp only [hasNoObservations, getUnits, List.all_eq_true]
  constructor
  · intro hall uv hm e
    have hmem : "o" ∈ (Spec.amounts times).map Prod.fst := by
      refine List.mem_map.mpr ⟨("o", Spec.lastGiven times "o"), ?_, rfl⟩
      exact List.mem_map.mpr ⟨"o", List.mem_eraseDups.mpr (List.mem_filterMap.mpr ⟨uv, hm, e⟩), rfl⟩
    exact absurd (hall _ hmem) (by decide)
  · intro hall u hu
    obtain ⟨uv, hm, rfl⟩ := List.mem_map.mp hu
    have h1 := hne uv.1 (List.mem_map.mpr (by
      obtain ⟨y, hy, e⟩ := List.mem_map.mp (amounts_units times uv hm)
      exact ⟨y, hy, e⟩))
    have h2 : uv.1 ≠ "o" := by
      intro e
      obtain ⟨c, hc, rfl⟩ := List.mem_map.mp hm
      obtain ⟨x, hx, hxu⟩ := List.mem_filterMap.mp (List.mem_eraseDups.mp hc)
      exact hall x hx (hxu.trans (congrArg some e))
    simp [h1, h2]

/-! ### versions are compared as text -/

theorem strLt_iff (a b : List Char) : strLt a b = true ↔ Spec.TextBefore a b := by
  induction a generalizing b with
  | nil => cases b <;> simp [strLt, Spec.TextBefore]
  | cons x a ih =>
    cases b with
    | nil => simp [strLt, Spec.TextBefore]
    | cons y b =>
      simp only [strLt, Spec.TextBefore]
      have hlt : ∀ x y : Char, x < y ↔ x.toNat < y.toNat := fun x y => Iff.rfl
      by_cases h : x.toNat < y.toNat
      · simp [h, hlt]
      · rw [if_neg h]
        by_cases h' : y.toNat < x.toNat
        · rw [if_pos h']
          have : x ≠ y := by rintro rfl; exact h h'
          simp [hlt, h, this]
        · rw [if_neg h', ih]
          have : x = y := by
            have : x.toNat = y.toNat := by omega
            exact Char.ext (UInt32.toNat.inj this)
          subst this
          simp [hlt]

/-- C17. Versions that first differ in the components `a` (current) and `b` (saved), of any number of digits: the upgrade
warning is given iff the saved component comes later as text, and the outdated warning iff the first saved component comes
before the first current one as text. -/
theorem C17_first_difference_as_text (p x y : List Nat) (a b : Nat) (hab : a ≠ b) :
    ∃ w, checkSchemaVersion (Spec.showVersion (p ++ a :: x)) (some (Spec.showVersion (p ++ b :: y))) = .ok w ∧
      (w.upgrade = true ↔ Spec.TextBefore (Nat.repr a).toList (Nat.repr b).toList) ∧
      (w.outdated = true ↔
        p = [] ∧ Spec.TextBefore (Nat.repr b).toList (Nat.repr a).toList) := by
  have total : ∀ s t : List Char, s ≠ t → strLt s t = !strLt t s := by
    intro s
    induction s with
    | nil => intro t h; cases t with
      | nil => exact absurd rfl h
      | cons => rfl
    | cons c s ih =>
      intro t h
      cases t with
      | nil => rfl
      | cons d t =>
        simp only [strLt]
        by_cases h1 : c.toNat < d.toNat
        · rw [if_pos h1, if_neg (by omega), if_pos h1]; rfl
        · by_cases h2 : d.toNat < c.toNat
          · rw [if_neg h1, if_pos h2, if_pos h2]; rfl
          · have e : c = d := Char.ext (UInt32.toNat.inj (by show c.toNat = d.toNat; omega))
            subst e
            rw [if_neg h1, if_neg h1, if_neg h1, if_neg h1]
            exact ih t fun e => h (by rw [e])
  have hne : (Nat.repr a).toList ≠ (Nat.repr b).toList := by
    intro e
    have h := congrArg String.toNat? (String.toList_inj.mp e)
    rw [Nat.toNat?_repr, Nat.toNat?_repr] at h
    exact hab (Option.some.inj h)
  simp only [checkSchemaVersion]
  rw [splitDot_show _ (by simp), splitDot_show _ (by simp), List.map_append, List.map_append, upgradeWarning_prefix]
  have hup : upgradeWarning ((a :: x).map fun n => (Nat.repr n).toList) ((b :: y).map fun n => (Nat.repr n).toList) =
      .ok (strLt (Nat.repr a).toList (Nat.repr b).toList) := by
    simp only [List.map_cons, upgradeWarning]
    have ht := total _ _ hne
    cases hs : strLt (Nat.repr b).toList (Nat.repr a).toList with
    | true => rw [hs] at ht; rw [ht]; rfl
    | false => rw [hs] at ht; rw [ht]; rfl
  rw [hup]
  refine ⟨_, rfl, strLt_iff _ _, ?_⟩
  show strLt _ _ = true ↔ _
  cases p with
  | nil => simp only [List.map_nil, List.nil_append, List.map_cons, List.headD_cons, strLt_iff]; simp
  | cons c p => simp only [List.map_cons, List.cons_append, List.headD_cons, strLt_irrefl]; simp

example : Spec.TextBefore "1".toList "10".toList ∧ Spec.TextBefore "10".toList "5".toList := by
  constructor <;> simp [Spec.TextBefore]

/-- C57, only a number: the times are exactly one day (86 400 seconds) apart and end at the cutoff. -/
theorem C57_only_number_daily (c : Int) (n : Nat) :
    ∃ ts, cutoffsFor c none (some n) none = .ok ts ∧ ts.length = n ∧ Spec.Spaced 86400000000000 ts ∧
      (0 < n → ts.getLast? = some c) := by
  obtain ⟨ts, h1, h2⟩ := C57_window_and_number c 86400000000000 n (by decide)
  refine ⟨ts, ?_, h2⟩
  rw [C57_only_number_accepted, ← h1]
  rfl

end FT
