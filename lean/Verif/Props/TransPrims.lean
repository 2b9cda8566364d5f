import Verif.Lemmas.TransPrims
import Verif.Lemmas.CalcExample2
/-! # C66: transform primitives meet their definitions -/
namespace FT
open Spec

/-! ### Parts of dates -/

/-- C66: year, month and day are those of the Gregorian calendar: the datetime is on a day that has this date, days being
counted from 1970-01-01 and years having 365 or 366 days. -/
theorem C66_date {start : Int → Int} (cal : Calendar start) (t y m d : Int) :
    (yearPart [some t] = [some y] ∧ monthPart [some t] = [some m] ∧ dayPart [some t] = [some d]) ↔
      ∃ k, OnDay t k ∧ IsDate start k y m d := by
  have e : (∃ k, OnDay t k ∧ IsDate start k y m d) ↔ civil (dayOf t) = (y, m, d) := by
    rw [civil_iff cal]
    constructor
    · rintro ⟨k, hk, h⟩
      rwa [(dayOf_iff t k).mpr hk]
    · exact fun h => ⟨_, (dayOf_iff t _).mp rfl, h⟩
  rw [e]
  simp only [yearPart, monthPart, dayPart, datePart, List.map_cons, List.map_nil, Option.map_some, List.cons.injEq,
    Option.some.injEq, and_true]
  constructor
  · rintro ⟨rfl, rfl, rfl⟩; rfl
  · intro h; rw [h]; exact ⟨rfl, rfl, rfl⟩

/-- Such a calendar exists (and `C66_date` shows that there is only one date for each datetime). -/
example : ∃ start, Calendar start := ⟨yearStart, yearStart_calendar⟩

/-- 2019-06-17 11:10:50. -/
example : yearPart [some 1560769850000000000] = [some 2019] ∧ monthPart [some 1560769850000000000] = [some 6] ∧
    dayPart [some 1560769850000000000] = [some 17] := by decide

/-- C66: every date part is computed cell by cell, and a missing datetime has missing parts. -/
theorem C66_cellwise (values : TimeSeries) (i : Nat) (hi : i < values.length) :
    (∀ part ∈ [yearPart, monthPart, dayPart, hourPart, minutePart, secondPart, weekPart, weekdayPart],
      (part values).length = values.length ∧
        (values[i]? = some none → (part values)[i]? = some none) ∧
        ∀ t, values[i]? = some (some t) → (part values)[i]? = (part [some t])[0]? ∧ ∃ n, (part values)[i]? = some (some n)) := by
  intro part hp
  have key : ∀ f : Int → Int, part = datePart f → (part values).length = values.length ∧
        (values[i]? = some none → (part values)[i]? = some none) ∧
        ∀ t, values[i]? = some (some t) → (part values)[i]? = (part [some t])[0]? ∧ ∃ n, (part values)[i]? = some (some n) := by
    rintro f rfl
    unfold datePart
    refine ⟨List.length_map .., ?_, ?_⟩
    · intro h; simp [h]
    · intro t h; simp [h]
  simp only [List.mem_cons, List.not_mem_nil, or_false] at hp
  rcases hp with rfl | rfl | rfl | rfl | rfl | rfl | rfl | rfl <;> exact key _ rfl

example : dayPart [some 1560769850000000000, none] = [some 17, none] := by decide

/-- C66: hour, minute and second are those of the time elapsed since midnight. -/
theorem C66_clock (t h m s : Int) :
    (hourPart [some t] = [some h] ∧ minutePart [some t] = [some m] ∧ secondPart [some t] = [some s]) ↔
      ∃ k rest, OnDay t k ∧ 0 ≤ h ∧ h < 24 ∧ 0 ≤ m ∧ m < 60 ∧ 0 ≤ s ∧ s < 60 ∧ 0 ≤ rest ∧ rest < 1000000000 ∧
        t = k * 86400000000000 + ((h * 60 + m) * 60 + s) * 1000000000 + rest := by
  simp only [hourPart, minutePart, secondPart, datePart, List.map_cons, List.map_nil, Option.map_some, List.cons.injEq,
    Option.some.injEq, and_true, dayNs, OnDay]
  constructor
  · rintro ⟨rfl, rfl, rfl⟩
    exact ⟨t / 86400000000000, t % 1000000000, by omega, by omega, by omega, by omega, by omega, by omega, by omega, by omega,
      by omega, by omega⟩
  · rintro ⟨k, rest, hk, h1, h2, h3, h4, h5, h6, h7, h8, rfl⟩
    omega

example : hourPart [some 1560769850000000000] = [some 11] ∧ minutePart [some 1560769850000000000] = [some 10] ∧
    secondPart [some 1560769850000000000] = [some 50] := by decide

/-- C66: weekdays go in cycles of seven, Monday being 0; 1970-01-01 was a Thursday. -/
theorem C66_weekday (t n : Int) :
    weekdayPart [some t] = [some n] ↔ 0 ≤ n ∧ n < 7 ∧ ∃ k weeks, OnDay t k ∧ k = -3 + 7 * weeks + n := by
  simp only [weekdayPart, datePart, List.map_cons, List.map_nil, Option.map_some, List.cons.injEq, Option.some.injEq, and_true,
    weekdayOf]
  constructor
  · rintro rfl
    exact ⟨by omega, by omega, dayOf t, (dayOf t + 3) / 7, (dayOf_iff t _).mp rfl, by omega⟩
  · rintro ⟨h1, h2, k, w, hk, rfl⟩
    rw [(dayOf_iff t _).mpr hk]
    omega

/-- C66: weekends are the Saturdays and Sundays; a missing datetime is on no weekend. -/
theorem C66_weekend (values : TimeSeries) (i : Nat) (b : Bool) :
    (isWeekend values)[i]? = some b ↔
      ∃ v, values[i]? = some v ∧
        (b = true ↔ ∃ t, v = some t ∧ (weekdayPart [some t] = [some 5] ∨ weekdayPart [some t] = [some 6])) := by
  unfold isWeekend weekdayPart datePart
  rw [List.map_map, List.getElem?_map]
  cases hv : values[i]? with
  | none => simp
  | some v =>
    cases v with
    | none => cases b <;> simp
    | some t =>
      have h1 : 0 ≤ weekdayOf t ∧ weekdayOf t < 7 := by unfold weekdayOf; omega
      have e : (4 < weekdayOf t) ↔ (weekdayOf t = 5 ∨ weekdayOf t = 6) := by omega
      cases b <;> simp <;> omega

example : isWeekend [some 1560769850000000000, some 1561201850000000000, none] = [false, true, false] := by decide

/-- C66: the week is that of ISO 8601. -/
theorem C66_week {start : Int → Int} (cal : Calendar start) (t n : Int) :
    weekPart [some t] = [some n] ↔ ∃ k, OnDay t k ∧ IsoWeek start k n := by
  rw [cal.eq]
  simp only [weekPart, datePart, List.map_cons, List.map_nil, Option.map_some, List.cons.injEq, Option.some.injEq, and_true,
    weekOf, weekdayOf]
  have hday := (dayOf_iff t (dayOf t)).mp rfl
  generalize dayOf t = k at hday
  have e : (∃ k', OnDay t k' ∧ IsoWeek yearStart k' n) ↔ IsoWeek yearStart k n := by
    constructor
    · rintro ⟨k', h', h⟩
      have : k' = k := by unfold OnDay at h' hday; omega
      exact this ▸ h
    · exact fun h => ⟨k, hday, h⟩
  rw [e]
  obtain ⟨h1, h2, h3⟩ := yearAndDay_ok (k - (k + 3) % 7 + 3)
  have hT : (k - (k + 3) % 7 + 3) % 7 = 0 ∧ k - (k + 3) % 7 + 3 - 3 ≤ k ∧ k ≤ k - (k + 3) % 7 + 3 + 3 := by omega
  generalize hTd : k - (k + 3) % 7 + 3 = T at *
  constructor
  · rintro rfl
    refine ⟨T, (yearAndDay T).1, hT.1, hT.2.1, hT.2.2, by omega, by omega, by omega, by omega⟩
  · rintro ⟨T', y, g1, g2, g3, g4, g5, g6, g7⟩
    have hTT : T' = T := by omega
    subst hTT
    have hy : (yearAndDay T').1 = y := year_unique (by omega) h3 g4 g5
    rw [hy] at h1
    omega

example : weekPart [some 1560769850000000000] = [some 25] := by decide

/-- C66: the docstring of `Week` says otherwise: "the first week of the year starts on January 1, and week numbers increment each
Monday". The 1st of January 2021, a Friday, is in week 53, and the 31st of December 2018, a Monday, in week 1. -/
theorem C66_week_violated :
    (yearPart [some 1609459200000000000] = [some 2021] ∧ monthPart [some 1609459200000000000] = [some 1] ∧
      dayPart [some 1609459200000000000] = [some 1] ∧ weekPart [some 1609459200000000000] = [some 53]) ∧
    (yearPart [some 1546214400000000000] = [some 2018] ∧ monthPart [some 1546214400000000000] = [some 12] ∧
      dayPart [some 1546214400000000000] = [some 31] ∧ weekPart [some 1546214400000000000] = [some 1]) := by decide

/-! ### Differences of times -/

theorem unitDivs_get (unit : String) : unitDivs.get? unit = secondsPer unit := by
  unfold secondsPer
  split
  · rfl
  · show some _ = some _; congr 1; grind
  · show some _ = some _; congr 1; grind
  · rfl
  · rfl
  · rfl
  · rfl
  · rfl
  · rename_i h1 h2 h3 h4 h5 h6 h7 h8
    unfold unitDivs Dict.get?
    simp only [List.lookup, beq_eq_false_iff_ne.mpr h1, beq_eq_false_iff_ne.mpr h2, beq_eq_false_iff_ne.mpr h3,
      beq_eq_false_iff_ne.mpr h4, beq_eq_false_iff_ne.mpr h5, beq_eq_false_iff_ne.mpr h6, beq_eq_false_iff_ne.mpr h7,
      beq_eq_false_iff_ne.mpr h8]

theorem convertSeries_eq (secs : NumSeries) (unit : String) :
    convertSeries secs unit = match secondsPer unit with
      | none => .error .valueError
      | some d => .ok (secs.map fun v => v.map fun x => x / d) := by
  unfold convertSeries
  rw [unitDivs_get]
  cases secondsPer unit <;> rfl

/-- C66: `TimeSincePrevious`: an unknown unit raises `ValueError`; otherwise there is a value for every row, missing for the first
row and where this datetime or the one before is missing, and elsewhere the time elapsed since the datetime before. -/
theorem C66_time_since_previous (lower : String → String) (unit : String) (values : TimeSeries) :
    (secondsPer (lower unit) = none → timeSincePrevious lower unit values = .error .valueError) ∧
    ∀ len, secondsPer (lower unit) = some len →
      ∃ out, timeSincePrevious lower unit values = .ok out ∧ out.length = values.length ∧
        (0 < values.length → out[0]? = some none) ∧
        ∀ (i : Nat) before now, values[i]? = some before → values[i + 1]? = some now →
          (before = none ∨ now = none → out[i + 1]? = some none) ∧
          ∀ s t : Int, before = some s → now = some t → out[i + 1]? = some (some (((t : Rat) - (s : Rat)) / 1000000000 / len)) := by
  unfold timeSincePrevious
  rw [convertSeries_eq]
  constructor
  · intro h; rw [h]
  · intro len h
    rw [h]
    refine ⟨_, rfl, by simp [timeDiff, List.length_zipWith], ?_, ?_⟩
    · intro hpos
      cases values with
      | nil => simp at hpos
      | cons a l => cases a <;> simp [timeDiff]
    · intro i before now hb hn
      have e : (timeDiff values)[i + 1]? = some (now.bind fun x => before.map fun y => x - y) := by
        unfold timeDiff
        rw [List.getElem?_zipWith, List.getElem?_cons_succ, hn, hb]
      rw [List.getElem?_map, List.getElem?_map, e]
      constructor
      · rintro (rfl | rfl)
        · cases now <;> rfl
        · rfl
      · rintro s t rfl rfl
        simp only [Option.bind_some, Option.map_some, totalSeconds, Rat.intCast_sub]

/-- 00:00, 00:02, missing, 00:03, 00:02:30 of the example in the docstring. -/
example : timeSincePrevious (fun s => s) "seconds" [some 0, some 120000000000, none, some 180000000000, some 150000000000] =
    .ok [none, some 120, none, none, some (-30)] := by decide +kernel

namespace SincePreviousExample
open CalcExample

/-- `TimeSincePrevious(unit="nanoseconds")` as the calculator sees it: like every primitive that does not say
`uses_full_entity = True`, it is given the requested rows only. -/
def sincePrevious : TransPrim :=
  { usesFull := false, usesCalcTime := false
    fn := fun _ args => [(timeDiff ((args.headD []).map fun v => match v with | .num t => some t | _ => none)).map fun d =>
      match d with | some d => .num d | none => .null] }

def sessionTime : Feat := .mk { entity := "sessions", name := "time", names := ["time"], dflt := .null, kind := .identity "time" } [] []
def since : Feat := .mk { entity := "sessions", name := "TIME_SINCE_PREVIOUS(time)", names := ["TIME_SINCE_PREVIOUS(time)"], dflt := .null, kind := .trans sincePrevious } [sessionTime] []
end SincePreviousExample

/-- C26 fails for `TimeSincePrevious`, which looks at the row before but, unlike `Diff`, does not ask for the full entity
(`transform_primitive.py` 62-97): the value of session 12 depends on which sessions are asked for with it. -/
theorem C26_time_since_previous_violated :
    runCalc CalcExample.env [SincePreviousExample.since] (Trie.new []) (Trie.new none) "sessions" [.num 12] =
      .ok [(.num 12, [.null])] ∧
    runCalc CalcExample.env [SincePreviousExample.since] (Trie.new []) (Trie.new none) "sessions" [.num 10, .num 12] =
      .ok [(.num 10, [.null]), (.num 12, [.num 2])] ∧
    runCalc CalcExample.env [SincePreviousExample.since] (Trie.new []) (Trie.new none) "sessions" [.num 11, .num 12] =
      .ok [(.num 11, [.null]), (.num 12, [.num 1])] := by decide

/-- C66: `TimeSince`: the time elapsed from the datetime to the cutoff time, in the unit asked for. -/
theorem C66_time_since (lower : String → String) (unit : String) (values : TimeSeries) (time : Int) :
    (secondsPer (lower unit) = none → timeSince lower unit values time = .error .valueError) ∧
    ∀ len, secondsPer (lower unit) = some len →
      ∃ out, timeSince lower unit values time = .ok out ∧ out.length = values.length ∧
        ∀ i : Nat, (values[i]? = some none → out[i]? = some none) ∧
          ∀ t : Int, values[i]? = some (some t) → out[i]? = some (some (((time : Rat) - (t : Rat)) / 1000000000 / len)) := by
  unfold timeSince
  rw [convertSeries_eq]
  constructor
  · intro h; rw [h]
  · intro len h
    rw [h]
    refine ⟨_, rfl, by simp, fun i => ⟨?_, ?_⟩⟩
    · intro hv; simp [hv]
    · intro t hv
      simp [hv, totalSeconds, Rat.intCast_sub]

example : timeSince (fun s => s) "seconds" [some 1000, some 1000000000, some 120000000000] 0 =
    .ok [some (-1 / 1000000), some (-1), some (-120)] := by decide +kernel

/-- C66: `Age`: the number of whole days from the datetime to the cutoff time, divided by 365. -/
theorem C66_age (values : TimeSeries) (time : Int) (i : Nat) :
    (ageSeries values time).length = values.length ∧
    (values[i]? = some none → (ageSeries values time)[i]? = some none) ∧
    ∀ t : Int, values[i]? = some (some t) →
      ∃ days : Int, (ageSeries values time)[i]? = some (some ((days : Rat) / 365)) ∧ OnDay (time - t) days := by
  refine ⟨by simp [ageSeries], ?_, ?_⟩
  · intro h; simp [ageSeries, h]
  · intro t h
    refine ⟨(time - t) / dayNs, by simp [ageSeries, h], (dayOf_iff _ _).mp rfl⟩

example : ageSeries [some 0, none] (730 * 86400000000000 + 5) = [some 2, none] := by decide +kernel

/-! ### Text and values -/

/-- C66: `NumCharacters` is the length of the text; a missing text counts as empty. -/
theorem C66_characters (values : List (Option String)) (i : Nat) :
    (numCharacters values).length = values.length ∧
    (values[i]? = some none → (numCharacters values)[i]? = some 0) ∧
    ∀ s, values[i]? = some (some s) → (numCharacters values)[i]? = some s.length := by
  refine ⟨by simp [numCharacters], ?_, ?_⟩
  · intro h; simp [numCharacters, h]
  · intro s h; simp [numCharacters, h, String.length_toList]

example : numCharacters [some "This is a string", none, some "3"] = [16, 0, 1] := by decide +kernel

theorem count_intercalate (ws : List (List Char)) (h : ∀ w ∈ ws, ' ' ∉ w) :
    (([' '].intercalate ws)).count ' ' = ws.length - 1 := by
  induction ws with
  | nil => rfl
  | cons w ws ih =>
    have hw : w.count ' ' = 0 := List.count_eq_zero.mpr (h w List.mem_cons_self)
    cases ws with
    | nil => simpa [List.intercalate, List.intersperse] using hw
    | cons v vs =>
      have := ih fun w hw => h w (List.mem_cons_of_mem _ hw)
      simp only [List.intercalate, List.intersperse_cons_cons, List.flatten_cons, List.count_append] at this ⊢
      rw [this, hw]
      simp
      omega

/-- C66: `NumWords` counts the words of a text whose words are separated by single spaces.
Partial: `C66_words_violated` shows what happens to other texts. -/
theorem C66_words_partial (values : List (Option String)) (i : Nat) (words : List String) (hne : words ≠ [])
    (hwords : ∀ w ∈ words, ' ' ∉ w.toList) (h : values[i]? = some (some (" ".intercalate words))) :
    (numWords values)[i]? = some words.length := by
  have e : (" ".intercalate words).toList = [' '].intercalate (words.map String.toList) := by
    rw [String.toList_intercalate]; rfl
  have hc := count_intercalate (words.map String.toList) (by
    intro w hw
    obtain ⟨w', hw', rfl⟩ := List.mem_map.mp hw
    exact hwords w' hw')
  have hpos : 0 < words.length := List.length_pos_iff.mpr hne
  simp only [numWords, List.getElem?_map, h, Option.map_some, Option.getD_some, e, hc, List.length_map]
  congr 1
  omega

example : numWords [some "This is a string", some "Two words", some "no-spaces"] = [4, 2, 1] := by decide +kernel

/-- C66: a missing text and an empty text count as one word, and so does every extra space. -/
theorem C66_words_violated : numWords [none, some "", some "two  words ", some "two\nwords"] = [1, 1, 4, 1] := by decide +kernel

/-- C66: `IsIn` says for each cell whether it is one of the values; with no values given it is false everywhere. -/
theorem C66_isin {α : Type} [DecidableEq α] (outputs : Option (List α)) (values : List α) (i : Nat) (b : Bool) :
    (isInSeries outputs values)[i]? = some b ↔
      ∃ v, values[i]? = some v ∧ (b = true ↔ ∃ given, outputs = some given ∧ v ∈ given) := by
  unfold isInSeries
  rw [List.getElem?_map]
  cases hv : values[i]? with
  | none => simp
  | some v =>
    cases outputs with
    | none => cases b <;> simp
    | some given => cases b <;> simp

example : isInSeries (some ["string", "10.3"]) ["string", "10.5"] = [true, false] := by decide

/-- C66: `IsNull`, `Absolute`, `Negate` and `Not` cell by cell. -/
theorem C66_pointwise (values : NumSeries) (flags : List Bool) (i : Nat) :
    (∀ b, (isNullSeries values)[i]? = some b ↔ ∃ v, values[i]? = some v ∧ (b = true ↔ v = none)) ∧
    (∀ v, (absSeries values)[i]? = some v ↔
      (values[i]? = some none ∧ v = none) ∨ ∃ x y, values[i]? = some (some x) ∧ v = some y ∧ 0 ≤ y ∧ (y = x ∨ y = -x)) ∧
    (∀ v, (negateSeries values)[i]? = some v ↔
      (values[i]? = some none ∧ v = none) ∨ ∃ x y, values[i]? = some (some x) ∧ v = some y ∧ x + y = 0) ∧
    (∀ b, (notSeries flags)[i]? = some b ↔ ∃ c, flags[i]? = some c ∧ (b = true ↔ c = false)) := by
  refine ⟨?_, ?_, ?_, ?_⟩
  · intro b
    unfold isNullSeries
    rw [List.getElem?_map]
    cases values[i]? with
    | none => simp
    | some v => cases v <;> cases b <;> simp
  · intro v
    unfold absSeries
    rw [List.getElem?_map]
    cases values[i]? with
    | none => simp
    | some w =>
      cases w with
      | none => simp [eq_comm]
      | some x =>
        simp only [Option.map_some, Option.some.injEq, reduceCtorEq, false_and, false_or]
        constructor
        · rintro rfl
          refine ⟨x, _, rfl, rfl, ?_, ?_⟩ <;> split <;> grind
        · rintro ⟨x', y, rfl, rfl, h0, h⟩
          congr 1
          split <;> grind
  · intro v
    unfold negateSeries
    rw [List.getElem?_map]
    cases values[i]? with
    | none => simp
    | some w =>
      cases w with
      | none => simp [eq_comm]
      | some x =>
        simp only [Option.map_some, Option.some.injEq, reduceCtorEq, false_and, false_or]
        constructor
        · rintro rfl
          exact ⟨x, _, rfl, rfl, by grind⟩
        · rintro ⟨x', y, rfl, rfl, h⟩
          congr 1
          grind
  · intro b
    unfold notSeries
    rw [List.getElem?_map]
    cases flags[i]? with
    | none => simp
    | some v => cases v <;> cases b <;> simp

example : absSeries [some 2, none, some (-5)] = [some 2, none, some 5] := by decide +kernel

/-! ### Percentiles -/

theorem percentile_at (values : NumSeries) (i : Nat) (x : Rat) (h : values[i]? = some (some x)) :
    (percentile values)[i]? = some (some (percentileRank (present values) x)) := by
  unfold percentile
  simp only [List.getElem?_map, h, Option.map_some, Option.bind_some]
  have hp := isort_perm (fun a b : Rat => decide (a ≤ b)) (values.filterMap id)
  have hsorted := isort_sorted (fun a b : Rat => decide (a ≤ b)) ratLe_total
    (by intro a b c h1 h2; simp only [decide_eq_true_eq] at *; exact Rat.le_trans h1 h2) (values.filterMap id)
  have hmem : x ∈ values.filterMap id := by
    rw [List.mem_filterMap]
    exact ⟨some x, List.mem_of_getElem? h, rfl⟩
  have hlook := runRanks_lookup (values.filterMap id).length 0 (isort (fun a b : Rat => decide (a ≤ b)) (values.filterMap id))
    (Nat.le_of_eq hp.length_eq) (hsorted.imp fun h => by simpa using h) x (hp.mem_iff.mpr hmem)
  rw [hlook, Option.map_some, (hp.filter _).length_eq, (hp.filter _).length_eq]
  unfold percentileRank present
  congr 3
  grind

/-- C66: `Percentile`: the rank of a value among the values present, ties sharing the mean of their positions, divided by the
number of values present; missing values have no rank and do not count. -/
theorem C66_percentile (values : NumSeries) (i : Nat) :
    (percentile values).length = values.length ∧
    (values[i]? = some none → (percentile values)[i]? = some none) ∧
    ∀ x, values[i]? = some (some x) → (percentile values)[i]? = some (some (percentileRank (present values) x)) :=
  ⟨by simp [percentile], fun h => by simp [percentile, h], percentile_at values i⟩

example : percentile [some 10, some 15, some 1, none, some 20] = [some (1 / 2), some (3 / 4), some (1 / 4), none, some 1] := by
  decide +kernel
example : percentile [some 10, some 15, some 10] = [some (1 / 2), some 1, some (1 / 2)] := by decide +kernel

theorem filter_add (l : List Rat) (x : Rat) :
    (l.filter fun y => y < x).length + (l.filter fun y => y = x).length ≤ l.length := by
  induction l with
  | nil => simp
  | cons a l ih =>
    by_cases h1 : a < x
    · have h2 : ¬ a = x := fun h => Rat.lt_irrefl (h ▸ h1)
      simp only [List.filter_cons, h1, h2, decide_true, decide_false, if_true, List.length_cons]
      simp only [Bool.false_eq_true, if_false]
      omega
    · by_cases h2 : a = x
      · simp only [List.filter_cons, h1, h2, decide_true, if_true, List.length_cons]
        have : ¬ x < x := Rat.lt_irrefl
        simp only [this, decide_false, Bool.false_eq_true, if_false]
        omega
      · simp only [List.filter_cons, h1, h2, decide_false, Bool.false_eq_true, if_false, List.length_cons]
        omega

/-- C66: percentiles lie above 0 and reach at most 1. -/
theorem C66_percentile_range (values : NumSeries) (i : Nat) (p : Rat) (h : (percentile values)[i]? = some (some p)) :
    0 < p ∧ p ≤ 1 := by
  obtain ⟨x, hx⟩ : ∃ x, values[i]? = some (some x) := by
    cases hv : values[i]? with
    | none => simp [percentile, hv] at h
    | some v =>
      cases v with
      | none => simp [percentile, hv] at h
      | some x => exact ⟨x, rfl⟩
  have := percentile_at values i x hx
  rw [h] at this
  have hp : p = percentileRank (present values) x := by simpa using this
  have hmem : x ∈ present values := by
    unfold present
    rw [List.mem_filterMap]
    exact ⟨some x, List.mem_of_getElem? hx, rfl⟩
  have hadd := filter_add (present values) x
  have heq : 0 < ((present values).filter fun y => y = x).length :=
    List.length_pos_iff.mpr fun hn => by
      have : x ∈ (present values).filter fun y => y = x := List.mem_filter.mpr ⟨hmem, by simp⟩
      rw [hn] at this; cases this
  rw [hp]
  unfold percentileRank
  generalize ((present values).filter fun y => decide (y < x)).length = l at *
  generalize ((present values).filter fun y => decide (y = x)).length = e at *
  generalize (present values).length = n at *
  have hn : (0 : Rat) < (n : Rat) := by exact_mod_cast (by omega : 0 < n)
  have he : (1 : Rat) ≤ (e : Rat) := by exact_mod_cast heq
  have hl : (0 : Rat) ≤ (l : Rat) := by exact_mod_cast Nat.zero_le l
  have hsum : (l : Rat) + (e : Rat) ≤ (n : Rat) := by exact_mod_cast hadd
  constructor
  · rw [Rat.lt_div_iff hn]; grind
  · rw [Std.le_iff_lt_or_eq]
    by_cases hc : (l : Rat) + ((e : Rat) + 1) / 2 = n
    · right; rw [hc]; grind
    · left; rw [Rat.div_lt_iff hn]; grind

example : ∃ p, (percentile [some 10, none])[0]? = some (some p) := ⟨1, by decide +kernel⟩

/-- C66: a larger value has a larger percentile and equal values have equal ones. -/
theorem C66_percentile_order (values : NumSeries) (i j : Nat) (x y p q : Rat) (hx : values[i]? = some (some x))
    (hy : values[j]? = some (some y)) (hp : (percentile values)[i]? = some (some p)) (hq : (percentile values)[j]? = some (some q)) :
    (x < y ↔ p < q) ∧ (x = y ↔ p = q) := by
  have step : ∀ (i j : Nat) (x y p q : Rat), values[i]? = some (some x) → values[j]? = some (some y) →
      (percentile values)[i]? = some (some p) → (percentile values)[j]? = some (some q) → x < y → p < q := by
    intro i j x y p q hx hy hp hq hlt
    have e1 : p = percentileRank (present values) x := by
      have := percentile_at values i x hx; rw [hp] at this; simpa using this
    have e2 : q = percentileRank (present values) y := by
      have := percentile_at values j y hy; rw [hq] at this; simpa using this
    have hmemy : y ∈ present values := by
      unfold present
      rw [List.mem_filterMap]
      exact ⟨some y, List.mem_of_getElem? hy, rfl⟩
    have hle : ((present values).filter fun z => z < x).length + ((present values).filter fun z => z = x).length ≤
        ((present values).filter fun z => z < y).length := by
      have := filter_add ((present values).filter fun z => z < y) x
      rw [List.filter_filter, List.filter_filter] at this
      have c1 : ((present values).filter fun z => decide (z < x) && decide (z < y)) = (present values).filter fun z => decide (z < x) := by
        apply List.filter_congr
        intro z _
        by_cases h : z < x
        · simp [h, Std.lt_trans h hlt]
        · simp [h]
      have c2 : ((present values).filter fun z => decide (z = x) && decide (z < y)) = (present values).filter fun z => decide (z = x) := by
        apply List.filter_congr
        intro z _
        by_cases h : z = x
        · simp [h, hlt]
        · simp [h]
      rwa [c1, c2] at this
    have heq : 0 < ((present values).filter fun z => z = y).length :=
      List.length_pos_iff.mpr fun hn => by
        have : y ∈ (present values).filter fun z => z = y := List.mem_filter.mpr ⟨hmemy, by simp⟩
        rw [hn] at this; cases this
    have hadd := filter_add (present values) y
    rw [e1, e2]
    unfold percentileRank
    generalize ((present values).filter fun z => decide (z < x)).length = l1 at *
    generalize ((present values).filter fun z => decide (z = x)).length = n1 at *
    generalize ((present values).filter fun z => decide (z < y)).length = l2 at *
    generalize ((present values).filter fun z => decide (z = y)).length = n2 at *
    generalize (present values).length = n at *
    have hn : (0 : Rat) < (n : Rat) := by exact_mod_cast (by omega : 0 < n)
    have h1 : (l1 : Rat) + (n1 : Rat) ≤ (l2 : Rat) := by exact_mod_cast hle
    have h2 : (1 : Rat) ≤ (n2 : Rat) := by exact_mod_cast heq
    have h3 : (0 : Rat) ≤ (n1 : Rat) := by exact_mod_cast Nat.zero_le n1
    rw [Rat.div_lt_iff hn]
    have : (((l2 : Rat) + ((n2 : Rat) + 1) / 2) / (n : Rat)) * (n : Rat) = (l2 : Rat) + ((n2 : Rat) + 1) / 2 :=
      Rat.div_mul_cancel (fun h => by rw [h] at hn; exact Rat.lt_irrefl hn)
    rw [this]
    grind
  have same : x = y → p = q := by
    rintro rfl
    have e1 := percentile_at values i x hx
    have e2 := percentile_at values j x hy
    rw [hp] at e1; rw [hq] at e2
    simp only [Option.some.injEq] at e1 e2
    rw [e1, e2]
  have f := step i j x y p q hx hy hp hq
  have g := step j i y x q p hy hx hq hp
  grind

/-! ### Coordinates -/

theorem latLongParts_ok (part : Option Rat → Option Rat → Option Rat) (rows : List (Option Int × LatLong)) :
    (∃ row ∈ rows, row.2 = .nan) ∧ latLongParts part rows = .error .typeError ∨
    (∀ row ∈ rows, row.2 ≠ .nan) ∧ ∃ out, latLongParts part rows = .ok out ∧ out.length = rows.length ∧
      ∀ (i : Nat) l a b, rows[i]? = some (l, .pair a b) → out[i]? = some (part a b) := by
  induction rows with
  | nil => exact .inr ⟨by simp, [], rfl, rfl, by simp⟩
  | cons r rows ih =>
    obtain ⟨l, c⟩ := r
    cases c with
    | nan => exact .inl ⟨⟨_, List.mem_cons_self, rfl⟩, rfl⟩
    | pair a b =>
      rcases ih with ⟨⟨row, hr, hn⟩, he⟩ | ⟨hall, out, ho, hlen, hval⟩
      · exact .inl ⟨⟨row, List.mem_cons_of_mem _ hr, hn⟩, by simp [latLongParts, he, Except.map]⟩
      · refine .inr ⟨?_, part a b :: out, by simp [latLongParts, ho, Except.map], by simp [hlen], ?_⟩
        · intro row hr
          rcases List.mem_cons.mp hr with rfl | hr
          · simp
          · exact hall row hr
        · intro i l' a' b' h
          cases i with
          | zero => simp only [List.getElem?_cons_zero, Option.some.injEq, Prod.mk.injEq, LatLong.pair.injEq] at h; obtain ⟨_, rfl, rfl⟩ := h; rfl
          | succ i => simpa using hval i l' a' b' (by simpa using h)

/-- The cell after the replacement of single NaNs. -/
def filledCell (n : Nat) (row : Option Int × LatLong) : Option Int × LatLong :=
  match row with
  | (some i, .nan) => if 0 ≤ i ∧ i < n then (some i, .pair none none) else (some i, .nan)
  | v => v

theorem replaced_eq (rows : List (Option Int × LatLong)) :
    (if hasNans rows then replaceLatLongNan rows else rows) = rows.map (filledCell rows.length) := by
  by_cases h : hasNans rows = true
  · rw [if_pos h]; rfl
  · rw [if_neg h]
    have : ∀ row ∈ rows, filledCell rows.length row = row := by
      intro row hr
      obtain ⟨l, c⟩ := row
      cases c with
      | nan =>
        exfalso
        apply h
        unfold hasNans
        rw [List.any_eq_true]
        exact ⟨_, hr, by simp⟩
      | pair a b => cases l <;> rfl
    exact ((List.map_congr_left this).trans (List.map_id _)).symm

theorem filledCell_nan (n : Nat) (row : Option Int × LatLong) :
    (filledCell n row).2 = .nan ↔ row.2 = .nan ∧ ¬ ∃ i : Int, row.1 = some i ∧ 0 ≤ i ∧ i < n := by
  obtain ⟨l, c⟩ := row
  cases c with
  | pair a b => cases l <;> simp [filledCell]
  | nan =>
    cases l with
    | none => simp [filledCell]
    | some i =>
      unfold filledCell
      by_cases h : 0 ≤ i ∧ i < n
      · simp [h]
      · simp only [if_neg h]
        simpa using h

/-- What `Latitude` and `Longitude` should do with a row. -/
theorem coordinate (part : Option Rat → Option Rat → Option Rat) (hpart : part none none = none) (rows : List (Option Int × LatLong)) :
    ((∃ row ∈ rows, row.2 = .nan ∧ ¬ ∃ i : Int, row.1 = some i ∧ 0 ≤ i ∧ i < rows.length) →
      latLongParts part (if hasNans rows then replaceLatLongNan rows else rows) = .error .typeError) ∧
    ((∀ row ∈ rows, row.2 = .nan → ∃ i : Int, row.1 = some i ∧ 0 ≤ i ∧ i < rows.length) →
      ∃ out, latLongParts part (if hasNans rows then replaceLatLongNan rows else rows) = .ok out ∧ out.length = rows.length ∧
        ∀ (i : Nat) (label : Option Int) (cell : LatLong), rows[i]? = some (label, cell) →
          (cell = .nan → out[i]? = some none) ∧ ∀ a b, cell = .pair a b → out[i]? = some (part a b)) := by
  rw [replaced_eq]
  constructor
  · rintro ⟨row, hr, h⟩
    rcases latLongParts_ok part (rows.map (filledCell rows.length)) with ⟨_, he⟩ | ⟨hall, _⟩
    · exact he
    · exact absurd ((filledCell_nan _ row).mpr h) (hall _ (List.mem_map_of_mem hr))
  · intro h
    rcases latLongParts_ok part (rows.map (filledCell rows.length)) with ⟨⟨row', hr', hn⟩, _⟩ | ⟨_, out, ho, hlen, hval⟩
    · obtain ⟨row, hr, rfl⟩ := List.mem_map.mp hr'
      obtain ⟨h1, h2⟩ := (filledCell_nan _ row).mp hn
      exact absurd (h row hr h1) h2
    · refine ⟨out, ho, by simpa using hlen, ?_⟩
      intro i label cell hi
      constructor
      · rintro rfl
        obtain ⟨k, hk, hk1, hk2⟩ := h _ (List.mem_of_getElem? hi) rfl
        simp only at hk
        subst hk
        have := hval i (some k) none none (by rw [List.getElem?_map, hi]; simp [filledCell, hk1, hk2])
        rw [this, hpart]
      · rintro a b rfl
        exact hval i label a b (by rw [List.getElem?_map, hi]; cases label <;> rfl)

/-- C66: `Latitude` is the first and `Longitude` the second part of every pair, and a missing pair has no parts, provided that the
rows with missing pairs are labelled with numbers from 0 up to the number of rows.
Partial: for other labels both raise `TypeError`. -/
theorem C66_latlong_partial (rows : List (Option Int × LatLong))
    (labels : ∀ row ∈ rows, row.2 = .nan → ∃ i : Int, row.1 = some i ∧ 0 ≤ i ∧ i < rows.length) :
    ∃ lats lons, latitude rows = .ok lats ∧ longitude rows = .ok lons ∧ lats.length = rows.length ∧ lons.length = rows.length ∧
      ∀ (i : Nat) (label : Option Int) (cell : LatLong), rows[i]? = some (label, cell) →
        (cell = .nan → lats[i]? = some none ∧ lons[i]? = some none) ∧
        ∀ a b, cell = .pair a b → lats[i]? = some a ∧ lons[i]? = some b := by
  obtain ⟨lats, h1, h2, h3⟩ := (coordinate (fun a _ => a) rfl rows).2 labels
  obtain ⟨lons, g1, g2, g3⟩ := (coordinate (fun _ b => b) rfl rows).2 labels
  refine ⟨lats, lons, h1, g1, h2, g2, ?_⟩
  intro i label cell hi
  exact ⟨fun h => ⟨(h3 i label cell hi).1 h, (g3 i label cell hi).1 h⟩,
    fun a b h => ⟨(h3 i label cell hi).2 a b h, (g3 i label cell hi).2 a b h⟩⟩

/-- C66: a missing pair in a row labelled otherwise cannot be replaced, and the primitives raise `TypeError`. -/
theorem C66_latlong_error (rows : List (Option Int × LatLong))
    (h : ∃ row ∈ rows, row.2 = .nan ∧ ¬ ∃ i : Int, row.1 = some i ∧ 0 ≤ i ∧ i < rows.length) :
    latitude rows = .error .typeError ∧ longitude rows = .error .typeError :=
  ⟨(coordinate (fun a _ => a) rfl rows).1 h, (coordinate (fun _ b => b) rfl rows).1 h⟩

example : latitude [(some 0, .pair (some 42) (some (-71))), (some 1, .nan), (some 2, .pair none none)] = .ok [some 42, none, none] := by
  decide +kernel

/-- C66: the same coordinates in rows labelled 1 and 2 instead of 0 and 1, as after selecting rows or in an entity whose index
starts at 1, raise `TypeError`. -/
theorem C66_latlong_violated :
    longitude [(some 0, .pair (some 42) (some (-71))), (some 1, .nan)] = .ok [some (-71), none] ∧
    longitude [(some 1, .pair (some 42) (some (-71))), (some 2, .nan)] = .error .typeError := by decide +kernel

end FT
