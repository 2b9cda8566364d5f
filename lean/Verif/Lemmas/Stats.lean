import Mathlib.Tactic.Linarith
import Mathlib.Tactic.FieldSimp
import Mathlib.Tactic.Ring
import Mathlib.Algebra.BigOperators.Group.List.Basic
import Mathlib.Analysis.SpecialFunctions.Log.Basic
import Verif.Model.Stats
import Verif.Spec.Stats
import Verif.Lemmas.TransPrims
import Verif.Lemmas.Query
/-! # Statistics: lemmas -/
namespace FT
open Spec

theorem sum_sub_const (l : List Rat) (m : Rat) : (l.map fun x => x - m).sum = l.sum - (l.length : Rat) * m := by
  induction l with
  | nil => simp
  | cons a l ih => simp only [List.map_cons, List.sum_cons, ih, List.length_cons]; push_cast; ring

theorem length_ne_zero_rat {α : Type} {l : List α} (h : l ≠ []) : (l.length : Rat) ≠ 0 := by
  have : l.length ≠ 0 := by simpa using h
  exact_mod_cast this

theorem isMean_iff (l : List Rat) (m : Rat) : IsMean l m ↔ l ≠ [] ∧ m = l.sum / (l.length : Rat) := by
  unfold IsMean
  constructor
  · rintro ⟨h, h'⟩
    refine ⟨h, ?_⟩
    rw [sum_sub_const] at h'
    rw [eq_div_iff (length_ne_zero_rat h)]
    linarith
  · rintro ⟨h, rfl⟩
    refine ⟨h, ?_⟩
    rw [sum_sub_const, mul_div_cancel₀ _ (length_ne_zero_rat h), sub_self]

theorem meanOf_iff (l : List Rat) (m : Rat) : meanOf l = some m ↔ IsMean l m := by
  rw [isMean_iff]
  unfold meanOf
  cases l with
  | nil => simp
  | cons a l => simp [eq_comm]

theorem foldl_min (l : List Rat) (a : Rat) :
    (l.foldl (fun m x => if x < m then x else m) a ∈ a :: l) ∧ ∀ x ∈ a :: l, l.foldl (fun m x => if x < m then x else m) a ≤ x := by
  induction l generalizing a with
  | nil => simp
  | cons b l ih =>
    obtain ⟨h1, h2⟩ := ih (if b < a then b else a)
    rw [List.foldl_cons]
    constructor
    · rcases List.mem_cons.mp h1 with h | h
      · rw [h]; split <;> simp
      · simp [h]
    · intro x hx
      have hh := h2 _ List.mem_cons_self
      have hc : (if b < a then b else a) ≤ a ∧ (if b < a then b else a) ≤ b := by split <;> constructor <;> linarith
      rcases List.mem_cons.mp hx with rfl | hx
      · linarith [hc.1]
      · rcases List.mem_cons.mp hx with rfl | hx
        · linarith [hc.2]
        · exact h2 x (List.mem_cons_of_mem _ hx)

theorem foldl_max (l : List Rat) (a : Rat) :
    (l.foldl (fun m x => if m < x then x else m) a ∈ a :: l) ∧ ∀ x ∈ a :: l, x ≤ l.foldl (fun m x => if m < x then x else m) a := by
  induction l generalizing a with
  | nil => simp
  | cons b l ih =>
    obtain ⟨h1, h2⟩ := ih (if a < b then b else a)
    rw [List.foldl_cons]
    constructor
    · rcases List.mem_cons.mp h1 with h | h
      · rw [h]; split <;> simp
      · simp [h]
    · intro x hx
      have hh := h2 _ List.mem_cons_self
      have hc : a ≤ (if a < b then b else a) ∧ b ≤ (if a < b then b else a) := by split <;> constructor <;> linarith
      rcases List.mem_cons.mp hx with rfl | hx
      · linarith [hc.1]
      · rcases List.mem_cons.mp hx with rfl | hx
        · linarith [hc.2]
        · exact h2 x (List.mem_cons_of_mem _ hx)

/-! ### Median -/

theorem sorted_unique (l₁ l₂ : List Rat) (hp : l₁.Perm l₂) (h1 : l₁.Pairwise (· ≤ ·)) (h2 : l₂.Pairwise (· ≤ ·)) : l₁ = l₂ :=
  hp.eq_of_pairwise (fun _ _ _ _ hab hba => le_antisymm hab hba) h1 h2

theorem isort_rat (l : List Rat) : (isort (fun a b : Rat => decide (a ≤ b)) l).Pairwise (· ≤ ·) :=
  (isort_sorted (fun a b : Rat => decide (a ≤ b)) ratLe_total
    (by intro a b c h1 h2; simp only [decide_eq_true_eq] at *; exact le_trans h1 h2) l).imp fun h => by simpa using h

theorem medianPd_iff (s : NumSeries) (m : Rat) : medianPd s = some m ↔ IsMedian (s.filterMap id) m := by
  unfold medianPd IsMedian
  simp only
  generalize s.filterMap id = l
  have hp := isort_perm (fun a b : Rat => decide (a ≤ b)) l
  have hs := isort_rat l
  have hl := hp.length_eq
  generalize isort (fun a b : Rat => decide (a ≤ b)) l = t at *
  have key : (∃ sorted : List Rat, sorted.Perm l ∧ sorted.Pairwise (· ≤ ·) ∧
      ∃ a b, sorted[(l.length - 1) / 2]? = some a ∧ sorted[l.length / 2]? = some b ∧ 2 * m = a + b) ↔
      ∃ a b, t[(l.length - 1) / 2]? = some a ∧ t[l.length / 2]? = some b ∧ 2 * m = a + b := by
    constructor
    · rintro ⟨t', hp', hs', h⟩
      rw [sorted_unique t t' (hp.trans hp'.symm) hs hs']
      exact h
    · exact fun h => ⟨t, hp, hs, h⟩
  rw [key, ← hl]
  by_cases hodd : t.length % 2 = 1
  · rw [if_pos hodd, show (t.length - 1) / 2 = t.length / 2 by omega]
    constructor
    · intro h
      exact ⟨m, m, h, h, by ring⟩
    · rintro ⟨a, b, ha, hb, h⟩
      rw [ha] at hb
      cases hb
      rw [ha]
      congr 1
      linarith
  · rw [if_neg hodd, show (t.length - 1) / 2 = t.length / 2 - 1 by omega]
    constructor
    · intro h
      obtain ⟨a, ha, h⟩ := Option.bind_eq_some_iff.mp h
      obtain ⟨b, hb, h⟩ := Option.map_eq_some_iff.mp h
      exact ⟨a, b, ha, hb, by rw [← h]; ring⟩
    · rintro ⟨a, b, ha, hb, h⟩
      rw [ha, hb]
      simp only [Option.bind_some, Option.map_some]
      congr 1
      linarith

theorem filter_le_split (t : List Rat) (m : Rat) (k : Nat) (hk : ∀ x ∈ t.take k, x ≤ m) (hlen : k ≤ t.length) :
    k ≤ (t.filter fun x => x ≤ m).length := by
  calc k = (t.take k).length := by simp [hlen]
    _ = ((t.take k).filter fun x => x ≤ m).length := by
      rw [List.filter_eq_self.mpr (by simpa using hk)]
    _ ≤ (t.filter fun x => x ≤ m).length := ((List.take_sublist k t).filter _).length_le

theorem filter_ge_split (t : List Rat) (m : Rat) (k : Nat) (hk : ∀ x ∈ t.drop k, m ≤ x) :
    t.length - k ≤ (t.filter fun x => m ≤ x).length := by
  calc t.length - k = (t.drop k).length := by simp
    _ = ((t.drop k).filter fun x => m ≤ x).length := by
      rw [List.filter_eq_self.mpr (by simpa using hk)]
    _ ≤ (t.filter fun x => m ≤ x).length := ((List.drop_sublist k t).filter _).length_le

theorem sorted_take_le (t : List Rat) (hs : t.Pairwise (· ≤ ·)) (k : Nat) (a : Rat) (ha : t[k]? = some a) :
    (∀ x ∈ t.take (k + 1), x ≤ a) ∧ ∀ x ∈ t.drop k, a ≤ x := by
  induction t generalizing k with
  | nil => simp at ha
  | cons b t ih =>
    rw [List.pairwise_cons] at hs
    cases k with
    | zero =>
      simp at ha
      subst ha
      simp
      exact hs.1
    | succ k =>
      simp only [List.getElem?_cons_succ] at ha
      obtain ⟨h1, h2⟩ := ih hs.2 k ha
      constructor
      · intro x hx
        rw [List.take_succ_cons] at hx
        rcases List.mem_cons.mp hx with rfl | hx
        · exact hs.1 _ (List.mem_of_getElem? ha)
        · exact h1 x hx
      · intro x hx
        rw [List.drop_succ_cons] at hx
        exact h2 x hx

/-- Half of the values are at most the median, and half of them at least. -/
theorem median_halves (l : List Rat) (m : Rat) (h : IsMedian l m) :
    l.length ≤ 2 * (l.filter fun x => x ≤ m).length ∧ l.length ≤ 2 * (l.filter fun x => m ≤ x).length := by
  obtain ⟨t, hp, hs, a, b, ha, hb, hm⟩ := h
  obtain ⟨a1, a2⟩ := sorted_take_le t hs _ a ha
  obtain ⟨b1, b2⟩ := sorted_take_le t hs _ b hb
  have hlen := hp.length_eq
  have hlt : l.length / 2 < t.length := (List.getElem?_eq_some_iff.mp hb).1
  have hab : a ≤ b := by
    refine b1 a ?_
    rw [List.mem_iff_getElem?]
    refine ⟨(l.length - 1) / 2, ?_⟩
    rw [List.getElem?_take, if_pos (by omega), ha]
  have c1 := filter_le_split t m ((l.length - 1) / 2 + 1) (fun x hx => le_trans (a1 x hx) (by linarith)) (by omega)
  have c2 := filter_ge_split t m (l.length / 2) (fun x hx => le_trans (by linarith) (b2 x hx))
  rw [(hp.filter _).length_eq] at c1 c2
  constructor <;> omega

theorem sum_abs_le (l : List Rat) (m c : Rat) :
    (m ≤ c → (l.map fun x => |x - m|).sum + (c - m) * (2 * ((l.filter fun x => x ≤ m).length : Rat) - (l.length : Rat)) ≤
      (l.map fun x => |x - c|).sum) ∧
    (c ≤ m → (l.map fun x => |x - m|).sum + (m - c) * (2 * ((l.filter fun x => m ≤ x).length : Rat) - (l.length : Rat)) ≤
      (l.map fun x => |x - c|).sum) := by
  induction l with
  | nil => simp
  | cons a l ih =>
    constructor
    · intro h
      have := ih.1 h
      by_cases ha : a ≤ m
      · rw [List.filter_cons_of_pos (by simpa using ha)]
        simp only [List.map_cons, List.sum_cons, List.length_cons]
        push_cast
        rw [abs_of_nonpos (by linarith : a - m ≤ 0), abs_of_nonpos (by linarith : a - c ≤ 0)]
        linarith
      · rw [List.filter_cons_of_neg (by simpa using ha)]
        simp only [List.map_cons, List.sum_cons, List.length_cons]
        push_cast
        rw [abs_of_pos (by linarith : 0 < a - m)]
        have := le_abs_self (a - c)
        linarith
    · intro h
      have := ih.2 h
      by_cases ha : m ≤ a
      · rw [List.filter_cons_of_pos (by simpa using ha)]
        simp only [List.map_cons, List.sum_cons, List.length_cons]
        push_cast
        rw [abs_of_nonneg (by linarith : 0 ≤ a - m), abs_of_nonneg (by linarith : 0 ≤ a - c)]
        linarith
      · rw [List.filter_cons_of_neg (by simpa using ha)]
        simp only [List.map_cons, List.sum_cons, List.length_cons]
        push_cast
        rw [abs_of_neg (by linarith : a - m < 0)]
        have := neg_abs_le (a - c)
        linarith

/-! ### Deviation -/

theorem cast_sum_map (l : List Rat) (f : Rat → Rat) : (((l.map f).sum : Rat) : ℝ) = (l.map fun x => ((f x : Rat) : ℝ)).sum := by
  induction l with
  | nil => simp
  | cons a l ih => simp only [List.map_cons, List.sum_cons]; rw [Rat.cast_add, ih]

theorem squares_nonneg (l : List Rat) : 0 ≤ squares l := by
  unfold squares
  apply List.sum_nonneg
  intro x hx
  obtain ⟨y, _, rfl⟩ := List.mem_map.mp hx
  exact sq_nonneg _

theorem squares_cast (l : List Rat) (m : Rat) (hm : IsMean l m) :
    ((squares l : Rat) : ℝ) = (l.map fun (x : Rat) => ((x : ℝ) - (m : ℝ)) ^ 2).sum := by
  unfold squares
  rw [cast_sum_map, ((isMean_iff l m).mp hm).2]
  simp only [Rat.cast_pow, Rat.cast_sub]

theorem isMean_self (l : List Rat) (h : l ≠ []) : IsMean l (l.sum / (l.length : Rat)) := (isMean_iff _ _).mpr ⟨h, rfl⟩

theorem stdWith_iff (ddof : Nat) (s : NumSeries) (σ : ℝ) :
    stdWith ddof s = some σ ↔ ddof < (s.filterMap id).length ∧ IsDeviation (s.filterMap id) ((s.filterMap id).length - ddof) σ := by
  unfold stdWith
  simp only
  generalize s.filterMap id = l
  by_cases h : l.length ≤ ddof
  · rw [if_pos h]
    simp
    omega
  · rw [if_neg h]
    have hne : l ≠ [] := by rintro rfl; simp at h
    have hpos : (0 : ℝ) < ((l.length - ddof : Nat) : ℝ) := by exact_mod_cast (by omega : 0 < l.length - ddof)
    have hsq := squares_cast l _ (isMean_self l hne)
    have hnn : (0 : ℝ) ≤ (squares l : Rat) := by exact_mod_cast squares_nonneg l
    have hdiv : (0 : ℝ) ≤ ((squares l / ((l.length - ddof : Nat) : Rat) : Rat) : ℝ) := by
      push_cast
      exact div_nonneg hnn hpos.le
    constructor
    · intro e
      have e := Option.some.inj e
      refine ⟨by omega, ?_⟩
      rw [← e]
      refine ⟨Real.sqrt_nonneg _, _, isMean_self l hne, ?_⟩
      rw [Real.sq_sqrt hdiv, ← hsq]
      push_cast
      field_simp
    · rintro ⟨_, h0, m, hm, he⟩
      congr 1
      rw [Real.sqrt_eq_iff_mul_self_eq hdiv h0, ← sq]
      rw [← squares_cast l m hm] at he
      push_cast
      rw [div_eq_iff hpos.ne', ← he, mul_comm]

/-! ### Skewness -/

theorem sum_sq_zero (l : List Rat) (m : Rat) (h : (l.map fun x => (x - m) ^ 2).sum = 0) : ∀ x ∈ l, x = m := by
  induction l with
  | nil => simp
  | cons a l ih =>
    simp only [List.map_cons, List.sum_cons] at h
    have h1 : 0 ≤ (a - m) ^ 2 := sq_nonneg _
    have h2 : 0 ≤ (l.map fun x => (x - m) ^ 2).sum := by
      apply List.sum_nonneg
      intro x hx
      obtain ⟨y, _, rfl⟩ := List.mem_map.mp hx
      exact sq_nonneg _
    intro x hx
    rcases List.mem_cons.mp hx with rfl | hx
    · have : (x - m) ^ 2 = 0 := by linarith
      have := pow_eq_zero_iff (two_ne_zero) |>.mp this
      linarith
    · exact ih (by linarith) x hx

theorem sum_const (l : List Rat) (c : Rat) (h : ∀ x ∈ l, x = c) : l.sum = (l.length : Rat) * c := by
  induction l with
  | nil => simp
  | cons a l ih =>
    rw [List.sum_cons, ih fun x hx => h x (List.mem_cons_of_mem _ hx), h a List.mem_cons_self, List.length_cons]
    push_cast
    ring

theorem squares_zero (l : List Rat) (hne : l ≠ []) : squares l = 0 ↔ ∀ x ∈ l, ∀ y ∈ l, x = y := by
  constructor
  · intro h x hx y hy
    rw [sum_sq_zero l _ h x hx, sum_sq_zero l _ h y hy]
  · intro h
    obtain ⟨c, hc⟩ := List.exists_mem_of_ne_nil l hne
    have hs := sum_const l c fun x hx => h x hx c hc
    unfold squares
    rw [hs, mul_div_cancel_left₀ _ (length_ne_zero_rat hne)]
    apply List.sum_eq_zero
    intro y hy
    obtain ⟨x, hx, rfl⟩ := List.mem_map.mp hy
    rw [h x hx c hc]
    ring

theorem sum_div_pow (l : List Rat) (m : Rat) (σ : ℝ) :
    (l.map fun (x : Rat) => (((x : ℝ) - (m : ℝ)) / σ) ^ 3).sum = (((l.map fun x => (x - m) ^ 3).sum : Rat) : ℝ) / σ ^ 3 := by
  induction l with
  | nil => simp
  | cons a l ih =>
    simp only [List.map_cons, List.sum_cons]
    rw [ih, Rat.cast_add, add_div, div_pow]
    push_cast
    rfl

theorem deviation_unique (l : List Rat) (k : Nat) (hk : 0 < k) (σ τ : ℝ) (h : IsDeviation l k σ) (h' : IsDeviation l k τ) : σ = τ := by
  obtain ⟨h0, m, hm, he⟩ := h
  obtain ⟨h0', m', hm', he'⟩ := h'
  rw [← squares_cast l m hm] at he
  rw [← squares_cast l m' hm'] at he'
  have hk' : (0 : ℝ) < (k : ℝ) := by exact_mod_cast hk
  have : σ ^ 2 = τ ^ 2 := by
    have := he.trans he'.symm
    exact mul_left_cancel₀ hk'.ne' this
  exact (pow_left_inj₀ h0 h0' two_ne_zero).mp this

theorem skewPd_iff (s : NumSeries) (g : ℝ) : skewPd s = some g ↔ IsSkewness (s.filterMap id) g := by
  unfold skewPd IsSkewness
  simp only
  generalize s.filterMap id = l
  by_cases hlen : l.length < 3
  · rw [if_pos hlen]
    simp
    omega
  rw [if_neg hlen]
  have hne : l ≠ [] := by rintro rfl; simp at hlen
  have hn : (3 : ℝ) ≤ (l.length : ℝ) := by exact_mod_cast (by omega : 3 ≤ l.length)
  have h3 : 3 ≤ l.length := by omega
  have hz := squares_zero l hne
  have hnn := squares_nonneg l
  by_cases h0 : squares l = 0
  · rw [if_pos (by exact_mod_cast h0)]
    have heq := hz.mp h0
    constructor
    · intro h
      exact ⟨h3, .inl ⟨heq, (Option.some.inj h).symm⟩⟩
    · rintro ⟨_, ⟨_, rfl⟩ | ⟨m, σ, hm, ⟨_, m', hm', hd⟩, hpos, _⟩⟩
      · rfl
      · exfalso
        rw [← squares_cast l m' hm', h0] at hd
        have : (0 : ℝ) < ((l.length - 1 : Nat) : ℝ) * σ ^ 2 := by
          have : (0 : ℝ) < ((l.length - 1 : Nat) : ℝ) := by exact_mod_cast (by omega : 0 < l.length - 1)
          positivity
        rw [hd] at this
        simp at this
  · rw [if_neg (by exact_mod_cast h0)]
    have hQ : (0 : ℝ) < (squares l : Rat) := by exact_mod_cast lt_of_le_of_ne hnn (Ne.symm h0)
    have hm := isMean_self l hne
    have hsq := squares_cast l _ hm
    have e1 : (((l.length - 1 : Nat) : ℝ)) = (l.length : ℝ) - 1 := by
      rw [Nat.cast_sub (by omega)]; norm_num
    have hdev : IsDeviation l (l.length - 1) (Real.sqrt ((squares l : Rat) / ((l.length : ℝ) - 1))) := by
      refine ⟨Real.sqrt_nonneg _, _, hm, ?_⟩
      rw [Real.sq_sqrt (div_nonneg hQ.le (by linarith)), ← hsq, e1]
      have : (l.length : ℝ) - 1 ≠ 0 := by linarith
      field_simp
    have hσ : 0 < Real.sqrt ((squares l : Rat) / ((l.length : ℝ) - 1)) := Real.sqrt_pos.mpr (div_pos hQ (by linarith))
    have hval : (l.length : ℝ) * Real.sqrt ((l.length : ℝ) - 1) / ((l.length : ℝ) - 2) *
        ((((l.map fun x => (x - l.sum / (l.length : Rat)) ^ 3).sum : Rat) : ℝ) / ((squares l : Rat) * Real.sqrt (squares l : Rat))) =
        (l.length : ℝ) / (((l.length : ℝ) - 1) * ((l.length : ℝ) - 2)) *
          (l.map fun (x : Rat) => (((x : ℝ) - ((l.sum / (l.length : Rat) : Rat) : ℝ)) / Real.sqrt ((squares l : Rat) / ((l.length : ℝ) - 1))) ^ 3).sum := by
      rw [sum_div_pow]
      generalize (((l.map fun x => (x - l.sum / (l.length : Rat)) ^ 3).sum : Rat) : ℝ) = M
      generalize ((squares l : Rat) : ℝ) = Q at *
      generalize (l.length : ℝ) = n at *
      have hk : 0 < n - 1 := by linarith
      have hk2 : 0 < n - 2 := by linarith
      have hsk := Real.sqrt_pos.mpr hk
      have hsQ := Real.sqrt_pos.mpr hQ
      have ek := Real.sq_sqrt hk.le
      have eQ := Real.sq_sqrt hQ.le
      rw [Real.sqrt_div hQ.le]
      have e3 : (Real.sqrt Q / Real.sqrt (n - 1)) ^ 3 = Q * Real.sqrt Q / ((n - 1) * Real.sqrt (n - 1)) := by
        rw [div_pow]
        congr 1
        · rw [pow_succ, eQ]
        · rw [pow_succ, ek]
      rw [e3]
      generalize Real.sqrt (n - 1) = r at *
      generalize Real.sqrt Q = q at *
      field_simp
    constructor
    · intro h
      have h := Option.some.inj h
      exact ⟨h3, .inr ⟨_, _, hm, hdev, hσ, by rw [← h, hval]⟩⟩
    · rintro ⟨_, ⟨heq, _⟩ | ⟨m, σ, hm', hd, hpos, hg⟩⟩
      · exact absurd (hz.mpr heq) h0
      · rw [hg, hval]
        have : σ = Real.sqrt ((squares l : Rat) / ((l.length : ℝ) - 1)) := deviation_unique l (l.length - 1) (by omega) _ _ hd hdev
        rw [this, ((isMean_iff l m).mp hm').2]

/-! ### Entropy -/

theorem sum_count (s vs : List Val) (hn : vs.Nodup) (hc : ∀ v ∈ s, v ∈ vs) : (vs.map fun v => s.count v).sum = s.length := by
  induction s with
  | nil => simp
  | cons a s ih =>
    have h1 := ih fun v hv => hc v (List.mem_cons_of_mem _ hv)
    have ha := hc a List.mem_cons_self
    have key : ∀ us : List Val, us.Nodup → (us.map fun v => (a :: s).count v).sum = (us.map fun v => s.count v).sum + if a ∈ us then 1 else 0 := by
      intro us hu
      induction us with
      | nil => simp
      | cons u us ih =>
        rw [List.nodup_cons] at hu
        simp only [List.map_cons, List.sum_cons, ih hu.2]
        by_cases hau : a = u
        · subst hau
          simp [hu.1]
          omega
        · simp [hau, List.count_cons]
          omega
    rw [key vs hn, h1, if_pos ha, List.length_cons]

theorem sum_share (s vs : List Val) (hs : s ≠ []) (hn : vs.Nodup) (hc : ∀ v ∈ s, v ∈ vs) : (vs.map fun v => portion s v).sum = 1 := by
  have h := sum_count s vs hn hc
  have hpos : (s.length : ℝ) ≠ 0 := by
    have : s.length ≠ 0 := by simpa using hs
    exact_mod_cast this
  have key : ∀ us : List Val, (us.map fun v => portion s v).sum = (((us.map fun v => s.count v).sum : Nat) : ℝ) / (s.length : ℝ) := by
    intro us
    induction us with
    | nil => simp
    | cons u us ih =>
      simp only [List.map_cons, List.sum_cons, ih]
      unfold portion
      push_cast
      rw [add_div]
  rw [key, h, div_self hpos]

theorem share_pos (s : List Val) (v : Val) (h : v ∈ s) : 0 < portion s v ∧ portion s v ≤ 1 := by
  have hc : 0 < s.count v := List.count_pos_iff.mpr h
  have hl : s.count v ≤ s.length := List.count_le_length
  have hl0 : (0 : ℝ) < (s.length : ℝ) := by exact_mod_cast (by omega : 0 < s.length)
  unfold portion
  refine ⟨div_pos (by exact_mod_cast hc) hl0, ?_⟩
  rw [div_le_one hl0]
  exact_mod_cast hl

theorem entropy_perm (s vs ws : List Val) (h : vs.Perm ws) : entropy s vs = entropy s ws := (h.map _).sum_eq

theorem entropyPd_eq (dn : Bool) (s vs : List Val) (hn : vs.Nodup)
    (hv : ∀ v, v ∈ vs ↔ v ∈ (if dn then dropna s else s)) :
    entropyPd dn none s = entropy (if dn then dropna s else s) vs := by
  unfold entropyPd distribution
  simp only
  generalize (if dn = true then dropna s else s) = l at *
  have hp : (dedup l).Perm vs := by
    rw [List.perm_ext_iff_of_nodup (nodup_dedup _) hn]
    intro v
    rw [mem_dedup, hv]
  rw [← entropy_perm l _ _ hp]
  unfold entropy portion
  rw [List.map_map]
  congr 1
  apply List.map_congr_left
  intro v _
  simp only [Function.comp, Real.negMulLog]
  push_cast
  ring

/-- One summand of the entropy against the line that touches it at `1 / k`. -/
theorem entropy_term (p k : ℝ) (hp : 0 < p) (hk : 0 < k) :
    - (p * Real.log p) ≤ p * Real.log k + (1 / k - p) ∧ (- (p * Real.log p) = p * Real.log k + (1 / k - p) → p = 1 / k) := by
  have hy : 0 < 1 / (k * p) := by positivity
  have hlog : Real.log (1 / (k * p)) = - Real.log k - Real.log p := by
    rw [one_div, Real.log_inv, Real.log_mul hk.ne' hp.ne']
    ring
  have hle := Real.log_le_sub_one_of_pos hy
  have e : p * (1 / (k * p) - 1) = 1 / k - p := by
    field_simp
  constructor
  · have := mul_le_mul_of_nonneg_left hle hp.le
    rw [e, hlog] at this
    linarith
  · intro h
    by_contra hne
    have hy1 : 1 / (k * p) ≠ 1 := by
      intro hh
      apply hne
      field_simp at hh ⊢
      linarith
    have hlt := Real.log_lt_sub_one_of_pos hy hy1
    have := mul_lt_mul_of_pos_left hlt hp
    rw [e, hlog] at this
    linarith

theorem sum_terms (ps : List ℝ) (k : ℝ) (hk : 0 < k) (hp : ∀ p ∈ ps, 0 < p) :
    (ps.map fun p => - (p * Real.log p)).sum ≤ ps.sum * Real.log k + ((ps.length : ℝ) / k - ps.sum) ∧
    ((ps.map fun p => - (p * Real.log p)).sum = ps.sum * Real.log k + ((ps.length : ℝ) / k - ps.sum) → ∀ p ∈ ps, p = 1 / k) := by
  induction ps with
  | nil => simp
  | cons p ps ih =>
    obtain ⟨h1, h2⟩ := ih fun q hq => hp q (List.mem_cons_of_mem _ hq)
    obtain ⟨g1, g2⟩ := entropy_term p k (hp p List.mem_cons_self) hk
    simp only [List.map_cons, List.sum_cons, List.length_cons]
    push_cast
    rw [add_mul, add_div]
    constructor
    · linarith
    · intro h q hq
      rcases List.mem_cons.mp hq with rfl | hq
      · exact g2 (by linarith)
      · exact h2 (by linarith) q hq

end FT
