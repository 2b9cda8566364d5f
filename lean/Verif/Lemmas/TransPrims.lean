import Verif.Model.TransPrims
import Verif.Spec.TransPrims
import Verif.Lemmas.Sort
/-! # Transform primitives: lemmas -/
namespace FT
open Spec

/-- The start of a year, by a formula. -/
def yearStart (y : Int) : Int := 365 * (y - 1970) + (y - 1) / 4 - (y - 1) / 100 + (y - 1) / 400 - 477

theorem yearStart_next (y : Int) : yearStart (y + 1) = yearStart y + if LeapYear y then 366 else 365 := by
  by_cases h : LeapYear y
  · rw [if_pos h]; unfold LeapYear at h; unfold yearStart; omega
  · rw [if_neg h]; unfold LeapYear at h; unfold yearStart; omega

theorem yearStart_calendar : Calendar yearStart := ⟨by decide, yearStart_next⟩

theorem Spec.Calendar.eq {start : Int → Int} (c : Calendar start) : start = yearStart := by
  have up : ∀ n : Nat, start (1970 + n) = yearStart (1970 + n) := by
    intro n
    induction n with
    | zero => simpa [c.epoch] using (yearStart_calendar.epoch).symm
    | succ n ih =>
      have h1 := c.next (1970 + n)
      have h2 := yearStart_next (1970 + n)
      rw [show (1970 : Int) + ((n + 1 : Nat) : Int) = 1970 + n + 1 by omega, h1, h2, ih]
  have down : ∀ n : Nat, start (1970 - n) = yearStart (1970 - n) := by
    intro n
    induction n with
    | zero => simpa [c.epoch] using (yearStart_calendar.epoch).symm
    | succ n ih =>
      have h1 := c.next (1970 - n - 1)
      have h2 := yearStart_next (1970 - n - 1)
      rw [show (1970 : Int) - n - 1 + 1 = 1970 - n by omega] at h1 h2
      rw [show (1970 : Int) - ((n + 1 : Nat) : Int) = 1970 - n - 1 by omega]
      omega
  funext y
  by_cases h : 1970 ≤ y
  · have := up (y - 1970).toNat
    rwa [show (1970 : Int) + ((y - 1970).toNat : Int) = y by omega] at this
  · have := down (1970 - y).toNat
    rwa [show (1970 : Int) - ((1970 - y).toNat : Int) = y by omega] at this

theorem yearStart_mono {y z : Int} (h : y ≤ z) : yearStart y ≤ yearStart z := by
  unfold yearStart; omega

theorem yearStart_lt {y z : Int} (h : y < z) : yearStart y < yearStart z := by
  unfold yearStart; omega

/-- The year a day is in is unique. -/
theorem year_unique {k y z : Int} (h1 : yearStart y ≤ k) (h2 : k < yearStart (y + 1)) (h3 : yearStart z ≤ k) (h4 : k < yearStart (z + 1)) : y = z := by
  rcases Int.lt_trichotomy y z with h | h | h
  · have := yearStart_mono (show y + 1 ≤ z by omega); omega
  · exact h
  · have := yearStart_mono (show z + 1 ≤ y by omega); omega

/-- The start of a year by its place in the cycle of 400 years. -/
theorem yearStart_cycle (b c d e : Int) (hc : 0 ≤ c ∧ c ≤ 3) (hd : 0 ≤ d ∧ d ≤ 24) (he : 0 ≤ e ∧ e ≤ 3) :
    yearStart (400 * b + 100 * c + 4 * d + e + 2000) =
      10957 + 146097 * b + 36524 * c + 1461 * d + 365 * e + (if 0 < e then 1 else 0) - (if 0 < d ∨ 0 < e then 1 else 0) +
        (if 0 < c ∨ 0 < d ∨ 0 < e then 1 else 0) := by
  have h4 : (400 * b + 100 * c + 4 * d + e + 2000 - 1) / 4 = 100 * b + 25 * c + d + 500 + (if 0 < e then 0 else -1) := by split <;> omega
  have h100 : (400 * b + 100 * c + 4 * d + e + 2000 - 1) / 100 = 4 * b + c + 20 + (if 0 < d ∨ 0 < e then 0 else -1) := by split <;> omega
  have h400 : (400 * b + 100 * c + 4 * d + e + 2000 - 1) / 400 = b + 5 + (if 0 < c ∨ 0 < d ∨ 0 < e then 0 else -1) := by split <;> omega
  unfold yearStart
  rw [h4, h100, h400]
  split <;> split <;> split <;> omega

theorem yearAndDay_ok (k : Int) : yearStart (yearAndDay k).1 + (yearAndDay k).2 = k ∧ 0 ≤ (yearAndDay k).2 ∧ k < yearStart ((yearAndDay k).1 + 1) := by
  have key : ∀ y r, yearStart y + r = k → 0 ≤ r → r < (if LeapYear y then 366 else 365) → yearStart y + r = k ∧ 0 ≤ r ∧ k < yearStart (y + 1) := by
    intro y r h1 h2 h3
    have := yearStart_next y
    exact ⟨h1, h2, by omega⟩
  have hleap : ∀ (b c d e : Int), 0 ≤ c ∧ c ≤ 3 → 0 ≤ d ∧ d ≤ 24 → e = 0 → (0 < d ∨ c = 0) → LeapYear (400 * b + 100 * c + 4 * d + e + 2000) := by
    intro b c d e hc hd he h
    unfold LeapYear; omega
  unfold yearAndDay
  simp only
  generalize hb : (k - (365 * 30 + 7)) / 146097 = b
  generalize hd1 : (k - (365 * 30 + 7)) % 146097 = d1
  have e1 : k - 10957 = 146097 * b + d1 ∧ 0 ≤ d1 ∧ d1 < 146097 := by omega
  split
  · generalize hc : (d1 - 1) / 36524 = c
    generalize hd2 : (d1 - 1) % 36524 = d2
    have e2 : d1 - 1 = 36524 * c + d2 ∧ 0 ≤ d2 ∧ d2 < 36524 ∧ 0 ≤ c ∧ c ≤ 3 := by omega
    split
    · generalize hd : (d2 + 1) / 1461 = d
      generalize hd3 : (d2 + 1) % 1461 = d3
      have e3 : d2 + 1 = 1461 * d + d3 ∧ 0 ≤ d3 ∧ d3 < 1461 ∧ 0 ≤ d ∧ d ≤ 24 := by omega
      split
      · generalize he : (d3 - 1) / 365 = e
        generalize hr : (d3 - 1) % 365 = r
        have e4 : d3 - 1 = 365 * e + r ∧ 0 ≤ r ∧ r < 365 ∧ 1 ≤ e ∧ e ≤ 3 := by omega
        simp only
        have hs := yearStart_cycle b c d e ⟨by omega, by omega⟩ ⟨by omega, by omega⟩ ⟨by omega, by omega⟩
        rw [if_pos (by omega), if_pos (by omega), if_pos (by omega)] at hs
        refine key _ _ ?_ (by omega) ?_
        · rw [hs]; omega
        · split <;> omega
      · simp only
        have hs := yearStart_cycle b c d 0 ⟨by omega, by omega⟩ ⟨by omega, by omega⟩ ⟨by omega, by omega⟩
        rw [Int.add_zero] at hs
        by_cases hd0 : 0 < d
        · rw [if_neg (by omega), if_pos (by omega), if_pos (by omega)] at hs
          refine key _ _ ?_ (by omega) ?_
          · rw [hs]; omega
          · have hl := hleap b c d 0 ⟨by omega, by omega⟩ ⟨by omega, by omega⟩ rfl (.inl hd0)
            rw [Int.add_zero] at hl
            rw [if_pos hl]; omega
        · exfalso; omega
    · simp only
      have hs := yearStart_cycle b c 0 0 ⟨by omega, by omega⟩ ⟨by omega, by omega⟩ ⟨by omega, by omega⟩
      rw [show 400 * b + 100 * c + 4 * 0 + 0 + 2000 = 400 * b + 100 * c + 2000 by omega, if_neg (by omega), if_neg (by omega)] at hs
      by_cases hc0 : 0 < c
      · rw [if_pos (by omega)] at hs
        refine key _ _ ?_ (by omega) ?_
        · rw [hs]; omega
        · split <;> omega
      · exfalso; omega
  · simp only
    have hs := yearStart_cycle b 0 0 0 ⟨by omega, by omega⟩ ⟨by omega, by omega⟩ ⟨by omega, by omega⟩
    rw [show 400 * b + 100 * 0 + 4 * 0 + 0 + 2000 = 400 * b + 2000 by omega, if_neg (by omega), if_neg (by omega), if_neg (by omega)] at hs
    refine key _ _ ?_ (by omega) ?_
    · rw [hs]; omega
    · have hl := hleap b 0 0 0 ⟨by omega, by omega⟩ ⟨by omega, by omega⟩ rfl (.inr rfl)
      rw [show 400 * b + 100 * 0 + 4 * 0 + 0 + 2000 = 400 * b + 2000 by omega] at hl
      rw [if_pos hl]; omega

theorem isLeap_iff (y : Int) : isLeap y = true ↔ LeapYear y := by
  unfold isLeap LeapYear
  simp only [Bool.and_eq_true, decide_eq_true_eq, Bool.or_eq_true, ne_eq]

theorem sum_nonneg {l : List Int} (h : ∀ x ∈ l, 0 < x) : 0 ≤ l.sum := by
  induction l with
  | nil => simp
  | cons a l ih =>
    rw [List.sum_cons]
    have := ih (fun x hx => h x (List.mem_cons_of_mem _ hx))
    have := h a List.mem_cons_self
    omega

/-- The loop finds the month in which the day lies. -/
theorem monthAndDay_spec (ls : List Int) (hpos : ∀ x ∈ ls, 0 < x) (m0 r m d : Int) (h0 : 0 ≤ r) (h1 : r < ls.sum) :
    monthAndDay ls m0 r = (m, d) ↔ ∃ (i : Nat) (l : Int), ls[i]? = some l ∧ m = m0 + i ∧ 1 ≤ d ∧ d ≤ l ∧ r = (ls.take i).sum + (d - 1) := by
  induction ls generalizing m0 r with
  | nil => simp at h1; omega
  | cons a ls ih =>
    have ha := hpos a List.mem_cons_self
    have hpos' : ∀ x ∈ ls, 0 < x := fun x hx => hpos x (List.mem_cons_of_mem _ hx)
    have hn : ∀ i, 0 ≤ (ls.take i).sum := fun i => sum_nonneg fun x hx => hpos' x (List.mem_of_mem_take hx)
    rw [List.sum_cons] at h1
    unfold monthAndDay
    split
    · constructor
      · intro h
        simp only [Prod.mk.injEq] at h
        exact ⟨0, a, rfl, by omega, by omega, by omega, by simp; omega⟩
      · rintro ⟨i, l, hl, hm, hd1, hd2, hr⟩
        cases i with
        | zero => simp at hl hr hm; subst hl; simp only [Prod.mk.injEq]; omega
        | succ i => rw [List.take_succ_cons, List.sum_cons] at hr; have := hn i; omega
    · rw [ih hpos' (m0 + 1) (r - a) (by omega) (by omega)]
      constructor
      · rintro ⟨i, l, hl, hm, hd1, hd2, hr⟩
        exact ⟨i + 1, l, by simpa using hl, by omega, hd1, hd2, by rw [List.take_succ_cons, List.sum_cons]; omega⟩
      · rintro ⟨i, l, hl, hm, hd1, hd2, hr⟩
        cases i with
        | zero => simp at hl hr; omega
        | succ i =>
          rw [List.take_succ_cons, List.sum_cons] at hr
          exact ⟨i, l, by simpa using hl, by omega, hd1, hd2, by omega⟩

theorem daysIn_eq (y : Int) (n : Nat) (l : Int) : (monthLengths (isLeap y))[n]? = some l ↔ n < 12 ∧ l = daysIn y (n + 1) := by
  have hl : (if isLeap y = true then (29 : Int) else 28) = if LeapYear y then 29 else 28 := by
    by_cases h : LeapYear y
    · rw [if_pos h, if_pos ((isLeap_iff y).mpr h)]
    · rw [if_neg h, if_neg (fun h' => h ((isLeap_iff y).mp h'))]
  unfold monthLengths
  rw [hl]
  by_cases hn : n < 12
  · match n, hn with
    | 0, _ | 1, _ | 2, _ | 3, _ | 4, _ | 5, _ | 6, _ | 7, _ | 8, _ | 9, _ | 10, _ | 11, _ =>
      simp [daysIn, eq_comm]
  · rw [List.getElem?_eq_none (by simp; omega)]
    simp [hn]

theorem daysBefore_eq (y : Int) (n : Nat) (hn : n < 12) : daysBefore y (n + 1) = ((monthLengths (isLeap y)).take n).sum := by
  have e : ((n : Int) + 1 - 1).toNat = n := by omega
  unfold daysBefore
  rw [e]
  congr 1
  apply List.ext_getElem?
  intro i
  rw [List.getElem?_map, List.getElem?_take]
  split
  · rename_i hi
    rw [List.getElem?_range hi]
    exact ((daysIn_eq y i _).mpr ⟨by omega, rfl⟩).symm
  · rename_i hi
    rw [List.getElem?_eq_none (by simp; omega)]
    rfl

theorem monthLengths_sum (y : Int) : (monthLengths (isLeap y)).sum = if LeapYear y then 366 else 365 := by
  by_cases h : LeapYear y
  · rw [if_pos h, (isLeap_iff y).mpr h]; rfl
  · have hb : isLeap y = false := by rw [← Bool.not_eq_true, isLeap_iff]; exact h
    rw [if_neg h, hb]; rfl

theorem monthLengths_pos (b : Bool) : ∀ x ∈ monthLengths b, 0 < x := by cases b <;> decide

/-- The months in the loop: a date is found iff it is the date. -/
theorem monthAndDay_iff (y r m d : Int) (h0 : 0 ≤ r) (h1 : r < if LeapYear y then 366 else 365) :
    monthAndDay (monthLengths (isLeap y)) 1 r = (m, d) ↔ 1 ≤ m ∧ m ≤ 12 ∧ 1 ≤ d ∧ d ≤ daysIn y m ∧ r = daysBefore y m + (d - 1) := by
  rw [monthAndDay_spec _ (monthLengths_pos _) 1 r m d h0 (by rw [monthLengths_sum]; exact h1)]
  constructor
  · rintro ⟨i, l, hl, rfl, hd1, hd2, hr⟩
    obtain ⟨hi, rfl⟩ := (daysIn_eq y i l).mp hl
    rw [Int.add_comm, daysBefore_eq y i hi]
    exact ⟨by omega, by omega, hd1, hd2, hr⟩
  · rintro ⟨hm1, hm2, hd1, hd2, hr⟩
    have e : m = ((m - 1).toNat : Int) + 1 := by omega
    refine ⟨(m - 1).toNat, daysIn y m, (daysIn_eq y _ _).mpr ⟨by omega, by rw [← e]⟩, by omega, hd1, hd2, ?_⟩
    rw [← daysBefore_eq y _ (by omega), ← e]
    exact hr

theorem daysBefore_bounds (y m d : Int) (h : 1 ≤ m ∧ m ≤ 12 ∧ 1 ≤ d ∧ d ≤ daysIn y m) :
    0 ≤ daysBefore y m + (d - 1) ∧ daysBefore y m + (d - 1) < if LeapYear y then 366 else 365 := by
  obtain ⟨hm1, hm2, hd1, hd2⟩ := h
  have e : m = ((m - 1).toNat : Int) + 1 := by omega
  generalize hn : (m - 1).toNat = n at e
  subst e
  have hn12 : n < 12 := by omega
  rw [daysBefore_eq y n hn12]
  have hpos := monthLengths_pos (isLeap y)
  refine ⟨by have := sum_nonneg (l := (monthLengths (isLeap y)).take n) fun x hx => hpos x (List.mem_of_mem_take hx); omega, ?_⟩
  rw [← monthLengths_sum]
  have hl := (daysIn_eq y n _).mpr ⟨hn12, rfl⟩
  have hs : ((monthLengths (isLeap y)).take (n + 1)).sum + ((monthLengths (isLeap y)).drop (n + 1)).sum = (monthLengths (isLeap y)).sum := by
    rw [← List.sum_append, List.take_append_drop]
  have hdrop := sum_nonneg (l := (monthLengths (isLeap y)).drop (n + 1)) fun x hx => hpos x (List.mem_of_mem_drop hx)
  rw [List.take_succ, hl, Option.toList, List.sum_append, List.sum_singleton] at hs
  omega

/-- The date of a day number. -/
theorem civil_iff {start : Int → Int} (cal : Calendar start) (k y m d : Int) : civil k = (y, m, d) ↔ IsDate start k y m d := by
  rw [cal.eq]
  obtain ⟨h1, h2, h3⟩ := yearAndDay_ok k
  have hlen := yearStart_next (yearAndDay k).1
  unfold civil IsDate
  simp only [Prod.mk.injEq]
  constructor
  · rintro ⟨rfl, h⟩
    have := (monthAndDay_iff _ _ m d h2 (by omega)).mp h
    exact ⟨this.1, this.2.1, this.2.2.1, this.2.2.2.1, by omega⟩
  · rintro ⟨hm1, hm2, hd1, hd2, rfl⟩
    have hb := daysBefore_bounds y m d ⟨hm1, hm2, hd1, hd2⟩
    have hy := yearStart_next y
    have e : (yearAndDay (yearStart y + daysBefore y m + (d - 1))).1 = y := year_unique (by omega) h3 (by omega) (by omega)
    refine ⟨e, ?_⟩
    rw [e] at h1 ⊢
    rw [monthAndDay_iff y _ m d (by omega) (by omega)]
    exact ⟨hm1, hm2, hd1, hd2, by omega⟩

theorem dayOf_iff (t k : Int) : dayOf t = k ↔ OnDay t k := by
  unfold dayOf OnDay dayNs
  omega

/-! ### Ranks -/

theorem sum_range_pos (i k : Nat) : 2 * ((List.range k).map fun j => i + j + 1).sum = k * (2 * i + k + 1) := by
  induction k with
  | zero => simp
  | succ k ih =>
    rw [List.range_succ, List.map_append, List.sum_append, Nat.mul_add, ih]
    simp only [List.map_cons, List.map_nil, List.sum_cons, List.sum_nil]
    grind

theorem mean_range (i k : Nat) (hk : 0 < k) :
    ((((List.range k).map fun j => i + j + 1).sum : Nat) : Rat) / (k : Rat) = (i : Rat) + ((k : Rat) + 1) / 2 := by
  have h := sum_range_pos i k
  generalize ((List.range k).map fun j => i + j + 1).sum = s at h
  have h' : (2 : Rat) * (s : Rat) = (k : Rat) * (2 * (i : Rat) + (k : Rat) + 1) := by exact_mod_cast h
  have hk' : (k : Rat) ≠ 0 := by exact_mod_cast (Nat.pos_iff_ne_zero.mp hk)
  grind

/-- In a sorted list the values equal to the first one come first. -/
theorem run_sorted (a : Rat) (l : List Rat) (hs : (a :: l).Pairwise (· ≤ ·)) :
    (∀ y ∈ l.takeWhile (· = a), y = a) ∧ (∀ y ∈ l.dropWhile (· = a), a < y) := by
  constructor
  · intro y hy
    have := List.all_takeWhile (p := fun y => decide (y = a)) (l := l)
    simpa using List.all_eq_true.mp this y hy
  · induction l with
    | nil => simp
    | cons b l ih =>
      rw [List.pairwise_cons] at hs
      by_cases hb : b = a
      · subst hb
        rw [List.dropWhile_cons_of_pos (by simp)]
        exact ih hs.2
      · rw [List.dropWhile_cons_of_neg (by simpa using hb)]
        intro y hy
        have hab := hs.1 b List.mem_cons_self
        have hlt : a < b := Rat.lt_of_le_of_ne hab (Ne.symm hb)
        rcases List.mem_cons.mp hy with rfl | hy
        · exact hlt
        · exact Std.lt_of_lt_of_le hlt ((List.pairwise_cons.mp hs.2).1 y hy)

theorem runRanks_lookup (fuel i : Nat) (l : List Rat) (hf : l.length ≤ fuel) (hs : l.Pairwise (· ≤ ·)) (x : Rat) (hx : x ∈ l) :
    (runRanks fuel i l).lookup x =
      some ((i : Rat) + ((l.filter fun y => y < x).length : Rat) + (((l.filter fun y => y = x).length : Rat) + 1) / 2) := by
  induction fuel generalizing i l with
  | zero =>
    have : l = [] := List.eq_nil_of_length_eq_zero (by omega)
    subst this; cases hx
  | succ fuel ih =>
    cases l with
    | nil => cases hx
    | cons a l =>
      obtain ⟨hrun, hrest⟩ := run_sorted a l hs
      have hsplit : l = l.takeWhile (· = a) ++ l.dropWhile (· = a) := (List.takeWhile_append_dropWhile).symm
      generalize ht : l.takeWhile (· = a) = run at *
      generalize hd : l.dropWhile (· = a) = rest at *
      subst hsplit
      unfold runRanks
      rw [ht, hd]
      simp only
      by_cases hxa : x = a
      · subst hxa
        rw [List.lookup_cons_self]
        rw [mean_range _ _ (by omega)]
        have e1 : ((x :: (run ++ rest)).filter fun y => decide (y < x)) = [] := by
          rw [List.filter_eq_nil_iff]
          intro y hy
          simp only [decide_eq_true_eq]
          rcases List.mem_cons.mp hy with rfl | hy
          · exact Rat.lt_irrefl
          · rcases List.mem_append.mp hy with hy | hy
            · rw [hrun y hy]; exact Rat.lt_irrefl
            · exact fun h => Rat.lt_irrefl (Std.lt_trans h (hrest y hy))
        have e2 : ((x :: (run ++ rest)).filter fun y => decide (y = x)) = x :: run := by
          rw [List.filter_cons_of_pos (by simp), List.filter_append]
          rw [List.filter_eq_self.mpr (by intro y hy; simpa using hrun y hy),
            List.filter_eq_nil_iff.mpr (by intro y hy; have := hrest y hy; simp; rintro rfl; exact Rat.lt_irrefl this), List.append_nil]
        rw [e1, e2]
        simp only [List.length_nil, List.length_cons]
        congr 1
        push_cast
        grind
      · have hxrest : x ∈ rest := by
          rcases List.mem_cons.mp hx with h | h
          · exact absurd h hxa
          · rcases List.mem_append.mp h with h | h
            · exact absurd (hrun x h) hxa
            · exact h
        have hax := hrest x hxrest
        have hlook : List.lookup x ((a, ((((List.range (run.length + 1)).map fun j => i + j + 1).sum : Nat) : Rat) / ((run.length + 1 : Nat) : Rat)) :: runRanks fuel (i + (run.length + 1)) rest) = List.lookup x (runRanks fuel (i + (run.length + 1)) rest) := by
          rw [List.lookup_cons]
          have : (x == a) = false := by simpa using hxa
          rw [this]
        rw [hlook]
        have hs' : rest.Pairwise (· ≤ ·) := (List.pairwise_append.mp (List.pairwise_cons.mp hs).2).2.1
        rw [ih (i + (run.length + 1)) rest (by simp at hf ⊢; omega) hs' hxrest]
        have e1 : ((a :: (run ++ rest)).filter fun y => decide (y < x)) = a :: run ++ rest.filter fun y => decide (y < x) := by
          rw [List.filter_cons_of_pos (by simpa using hax), List.filter_append,
            List.filter_eq_self.mpr (by intro y hy; rw [hrun y hy]; simpa using hax)]
          rfl
        have e2 : ((a :: (run ++ rest)).filter fun y => decide (y = x)) = rest.filter fun y => decide (y = x) := by
          rw [List.filter_cons_of_neg (by simpa using Ne.symm hxa), List.filter_append,
            List.filter_eq_nil_iff.mpr (by intro y hy; rw [hrun y hy]; simpa using Ne.symm hxa), List.nil_append]
        rw [e1, e2]
        congr 1
        simp only [List.length_append, List.length_cons]
        push_cast
        grind

theorem ratLe_total (a b : Rat) : decide (a ≤ b) = true ∨ decide (b ≤ a) = true := by
  simpa using Rat.le_total

end FT
