import Verif.Spec.Operators
/-!
# Lemmas about operators: cells
-/
namespace FT
open Spec

/-! ### Numbers -/

theorem rat_lt_irrefl (q : Rat) : ¬ q < q := by grind

theorem below_iff (x y : Ext) : x.lt y = true ↔ SmallerThan x y := by
  constructor
  · intro h
    cases x <;> cases y <;> simp [Ext.lt] at h <;> first | exact .fin h | exact .negInf (by simp) | exact .posInf (by simp)
  · intro h
    cases h with
    | fin h => simpa [Ext.lt] using h
    | negInf h => cases y <;> simp_all [Ext.lt]
    | posInf h => cases x <;> simp_all [Ext.lt]

theorem not_below_iff (x y : Ext) : (!y.lt x) = true ↔ SmallerThan x y ∨ x = y := by
  rw [← below_iff]
  cases x <;> cases y <;> simp [Ext.lt]
  grind

theorem opposite_neg {x y : Ext} (h : Opposite x y) : y = x.neg := by cases h <;> rfl

theorem opposite_of (x : Ext) : Opposite x x.neg := by cases x <;> constructor

theorem sum_add {x y : Ext} {v : OCell} (h : Sum x y v) : OCell.ofNum (x.add y) = v := by
  cases h with
  | fin => rfl
  | left q h => rcases h with rfl | rfl <;> rfl
  | right q h => rcases h with rfl | rfl <;> rfl
  | same h => rcases h with rfl | rfl <;> rfl
  | opposite h ho => rcases h with rfl | rfl <;> cases ho <;> rfl

theorem sum_exists (x y : Ext) : Sum x y (OCell.ofNum (x.add y)) := by
  cases x <;> cases y
  · exact .fin _ _
  · exact .right _ (.inl rfl)
  · exact .right _ (.inr rfl)
  · exact .left _ (.inl rfl)
  · exact .same (.inl rfl)
  · exact .opposite (.inl rfl) .posInf
  · exact .left _ (.inr rfl)
  · exact .opposite (.inr rfl) .negInf
  · exact .same (.inr rfl)

theorem product_mul {x y : Ext} {v : OCell} (h : Product x y v) : OCell.ofNum (x.mul y) = v := by
  cases h with
  | fin => rfl
  | zero h => rcases h with rfl | rfl <;> simp [Ext.mul, infSign, OCell.ofNum]
  | zero' h => rcases h with rfl | rfl <;> simp [Ext.mul, infSign, OCell.ofNum]
  | positive hi h1 h2 =>
    cases h1 <;> cases h2 <;> simp_all [Ext.mul, infSign, OCell.ofNum, Infinite] <;> grind
  | positive' hi h1 h2 =>
    cases h1 <;> cases h2 <;> simp_all [Ext.mul, infSign, OCell.ofNum, Infinite] <;> grind
  | negative hi h1 h2 =>
    cases h1 <;> cases h2 <;> simp_all [Ext.mul, infSign, OCell.ofNum, Infinite] <;> grind
  | negative' hi h1 h2 =>
    cases h1 <;> cases h2 <;> simp_all [Ext.mul, infSign, OCell.ofNum, Infinite] <;> grind

theorem below_zero_posInf : SmallerThan (.fin 0) .posInf := .posInf (by simp)
theorem below_negInf_zero : SmallerThan .negInf (.fin 0) := .negInf (by simp)

theorem product_exists (x y : Ext) : Product x y (OCell.ofNum (x.mul y)) := by
  have pos : ∀ {q : Rat}, 0 < q → SmallerThan (.fin 0) (.fin q) := fun h => .fin h
  have neg : ∀ {q : Rat}, q < 0 → SmallerThan (.fin q) (.fin 0) := fun h => .fin h
  have pI : Infinite .posInf := .inl rfl
  have nI : Infinite .negInf := .inr rfl
  have p0 := below_zero_posInf
  have n0 := below_negInf_zero
  cases x with
  | fin p =>
    cases y with
    | fin q => exact .fin _ _
    | posInf =>
      by_cases h : p = 0
      · subst h; simpa [Ext.mul, infSign, OCell.ofNum] using Product.zero pI
      · by_cases hp : 0 < p
        · simpa [Ext.mul, infSign, h, hp, OCell.ofNum] using Product.positive (.inr pI) (pos hp) p0
        · simpa [Ext.mul, infSign, h, hp, OCell.ofNum] using Product.negative (.inr pI) (neg (by grind)) p0
    | negInf =>
      by_cases h : p = 0
      · subst h; simpa [Ext.mul, infSign, OCell.ofNum] using Product.zero nI
      · have hn : ¬ -p = 0 := by grind
        by_cases hp : 0 < p
        · have : ¬ 0 < -p := by grind
          simpa [Ext.mul, infSign, hn, this, OCell.ofNum] using Product.negative' (.inr nI) (pos hp) n0
        · have h2 : 0 < -p := by grind
          simpa [Ext.mul, infSign, hn, h2, OCell.ofNum] using Product.positive' (.inr nI) (neg (by grind)) n0
  | posInf =>
    cases y with
    | fin p =>
      by_cases h : p = 0
      · subst h; simpa [Ext.mul, infSign, OCell.ofNum] using Product.zero' pI
      · by_cases hp : 0 < p
        · simpa [Ext.mul, infSign, h, hp, OCell.ofNum] using Product.positive (.inl pI) p0 (pos hp)
        · simpa [Ext.mul, infSign, h, hp, OCell.ofNum] using Product.negative' (.inl pI) p0 (neg (by grind))
    | posInf => exact .positive (.inl pI) p0 p0
    | negInf => exact .negative' (.inl pI) p0 n0
  | negInf =>
    cases y with
    | fin p =>
      by_cases h : p = 0
      · subst h; simpa [Ext.mul, infSign, OCell.ofNum] using Product.zero' nI
      · have hn : ¬ -p = 0 := by grind
        by_cases hp : 0 < p
        · have : ¬ 0 < -p := by grind
          simpa [Ext.mul, infSign, hn, this, OCell.ofNum] using Product.negative (.inl nI) n0 (pos hp)
        · have h2 : 0 < -p := by grind
          simpa [Ext.mul, infSign, hn, h2, OCell.ofNum] using Product.positive' (.inl nI) n0 (neg (by grind))
    | posInf => exact .negative (.inl nI) n0 p0
    | negInf => exact .positive' (.inl nI) n0 n0

theorem quotient_div {x y : Ext} {v : OCell} (h : Quotient x y v) : OCell.ofNum (x.div y) = v := by
  cases h with
  | fin p h => simp [Ext.div, h, OCell.ofNum]
  | undefined => simp [Ext.div, infSign, OCell.ofNum]
  | byZero h => simp [Ext.div, infSign, OCell.ofNum, h]; grind
  | byZero' h => simp [Ext.div, infSign, OCell.ofNum]; grind
  | byInfinity p h => rcases h with rfl | rfl <;> rfl
  | infinite h hq => rcases h with rfl | rfl <;> simp [Ext.div, OCell.ofNum] <;> grind
  | infinite' h ho hq => rcases h with rfl | rfl <;> cases ho <;> simp [Ext.div, OCell.ofNum, hq]
  | both h h' => rcases h with rfl | rfl <;> rcases h' with rfl | rfl <;> rfl

theorem quotient_exists (x y : Ext) : Quotient x y (OCell.ofNum (x.div y)) := by
  have pI : Infinite .posInf := .inl rfl
  have nI : Infinite .negInf := .inr rfl
  cases x <;> cases y
  · rename_i p q
    by_cases hq : q = 0
    · subst hq
      by_cases hp : p = 0
      · subst hp; simpa [Ext.div, infSign, OCell.ofNum] using Quotient.undefined
      · by_cases h : 0 < p
        · simpa [Ext.div, infSign, OCell.ofNum, hp, h] using Quotient.byZero h
        · simpa [Ext.div, infSign, OCell.ofNum, hp, h] using Quotient.byZero' (p := p) (by grind)
    · simpa [Ext.div, hq, OCell.ofNum] using Quotient.fin p hq
  · exact .byInfinity _ pI
  · exact .byInfinity _ nI
  · rename_i q
    by_cases hq : q < 0
    · simpa [Ext.div, hq, OCell.ofNum] using Quotient.infinite' pI .posInf hq
    · simpa [Ext.div, hq, OCell.ofNum] using Quotient.infinite pI (by grind : (0 : Rat) ≤ q)
  · exact .both pI pI
  · exact .both pI nI
  · rename_i q
    by_cases hq : q < 0
    · simpa [Ext.div, hq, OCell.ofNum] using Quotient.infinite' nI .negInf hq
    · simpa [Ext.div, hq, OCell.ofNum] using Quotient.infinite nI (by grind : (0 : Rat) ≤ q)
  · exact .both nI pI
  · exact .both nI nI

/-- A fraction times its denominator. -/
theorem rat_div_mul (p q : Rat) (hq : q ≠ 0) : p / q * q = p := Rat.div_mul_cancel hq

theorem rat_mul_lt {a b q : Rat} (hq : 0 < q) (h : a < b) : a * q < b * q := Rat.mul_lt_mul_of_pos_right h hq

theorem rat_mul_le {a b q : Rat} (hq : 0 < q) (h : a ≤ b) : a * q ≤ b * q := by
  rcases (by grind : a = b ∨ a < b) with rfl | h'
  · exact Rat.le_refl
  · have := rat_mul_lt hq h'; grind

theorem floor_mul_pos (p q : Rat) (hq : 0 < q) :
    (((p / q).floor : Int) : Rat) * q ≤ p ∧ p < (((p / q).floor : Int) : Rat) * q + q := by
  have h0 : q ≠ 0 := by grind
  have h1 := rat_mul_le hq (Rat.floor_le (p / q))
  have h2 := rat_mul_lt hq (Rat.lt_floor_add_one (p / q))
  rw [rat_div_mul p q h0] at h1 h2
  rw [Rat.intCast_add] at h2
  refine ⟨h1, ?_⟩
  have : (((p / q).floor : Int) : Rat) * q + q = ((((p / q).floor : Int) : Rat) + ((1 : Int) : Rat)) * q := by
    have : ((1 : Int) : Rat) = 1 := rfl
    rw [this]; grind
  rw [this]; exact h2

theorem floor_mul_neg (p q : Rat) (hq : q < 0) :
    p ≤ (((p / q).floor : Int) : Rat) * q ∧ (((p / q).floor : Int) : Rat) * q + q < p := by
  have h0 : q ≠ 0 := by grind
  have hn : 0 < -q := by grind
  have h1 := rat_mul_le hn (Rat.floor_le (p / q))
  have h2 := rat_mul_lt hn (Rat.lt_floor_add_one (p / q))
  have e : p / q * -q = -p := by
    have := rat_div_mul p q h0
    grind
  rw [e] at h1 h2
  rw [Rat.intCast_add] at h2
  have : ((1 : Int) : Rat) = 1 := rfl
  rw [this] at h2
  constructor <;> grind

/-- A whole multiple of a positive number between `-q` and `q` is zero. -/
theorem int_of_small (k l : Int) (q r s : Rat) (hq : 0 < q) (h : k * q + r = l * q + s) (hr : 0 ≤ r) (hr' : r < q)
    (hs : 0 ≤ s) (hs' : s < q) : k = l := by
  have key : ∀ (a b : Int) (r s : Rat), a * q + r = b * q + s → 0 ≤ r → s < q → ¬ a < b → ¬ b < a → a = b := by
    intro a b r s _ _ _ h1 h2; omega
  have step : ∀ (a b : Int) (r s : Rat), a * q + r = b * q + s → r < q → 0 ≤ s → ¬ a < b := by
    intro a b r s h hr hs hab
    have h1 : a + 1 ≤ b := hab
    have h2 : ((a + 1 : Int) : Rat) ≤ (b : Rat) := Rat.intCast_le_intCast.mpr h1
    have h3 := rat_mul_le hq h2
    rw [Rat.intCast_add] at h3
    have : ((1 : Int) : Rat) = 1 := rfl
    rw [this] at h3
    grind
  exact key k l r s h hr hs' (step k l r s h hr' hs) (step l k s r h.symm hs' hr)

theorem remainder_mod {x y : Ext} {v : OCell} (h : Remainder x y v) : OCell.ofNum (x.mod y) = v := by
  cases h with
  | positive k hk h0 h1 =>
    rename_i p q r
    have hq : 0 < q := by grind
    have hne : q ≠ 0 := by grind
    obtain ⟨f1, f2⟩ := floor_mul_pos p q hq
    have := int_of_small k (p / q).floor q r (p - ((p / q).floor : Int) * q) hq (by rw [← hk]; grind) h0 h1 (by grind) (by grind)
    simp only [Ext.mod, hne, if_false, OCell.ofNum]
    rw [← this]
    have e : p - q * (k : Rat) = r := by grind
    rw [e]
  | negative k hk h0 h1 =>
    rename_i p q r
    have hq : q < 0 := by grind
    have hne : q ≠ 0 := by grind
    obtain ⟨f1, f2⟩ := floor_mul_neg p q hq
    have := int_of_small k (p / q).floor (-q) (-r) (-(p - ((p / q).floor : Int) * q)) (by grind) (by grind) (by grind) (by grind)
      (by grind) (by grind)
    simp only [Ext.mod, hne, if_false, OCell.ofNum]
    rw [← this]
    have e : p - q * (k : Rat) = r := by grind
    rw [e]
  | byZero p => simp [Ext.mod, OCell.ofNum]
  | infinite y h => rcases h with rfl | rfl <;> cases y <;> rfl
  | large h => simp [Ext.mod, OCell.ofNum]; grind
  | large' h => simp [Ext.mod, OCell.ofNum]; grind
  | wrap h => simp [Ext.mod, OCell.ofNum, h]
  | wrap' h => simp [Ext.mod, OCell.ofNum, h]

theorem remainder_exists (x y : Ext) : Remainder x y (OCell.ofNum (x.mod y)) := by
  cases x with
  | posInf => cases y <;> exact .infinite _ (.inl rfl)
  | negInf => cases y <;> exact .infinite _ (.inr rfl)
  | fin p =>
    cases y with
    | posInf =>
      by_cases h : p < 0
      · simpa [Ext.mod, h, OCell.ofNum] using Remainder.wrap h
      · simpa [Ext.mod, h, OCell.ofNum] using Remainder.large (by grind : (0 : Rat) ≤ p)
    | negInf =>
      by_cases h : 0 < p
      · simpa [Ext.mod, h, OCell.ofNum] using Remainder.wrap' h
      · simpa [Ext.mod, h, OCell.ofNum] using Remainder.large' (by grind : p ≤ 0)
    | fin q =>
      by_cases hq : q = 0
      · subst hq; simpa [Ext.mod, OCell.ofNum] using Remainder.byZero p
      · simp only [Ext.mod, hq, if_false, OCell.ofNum]
        rcases (by grind : q < 0 ∨ 0 < q) with h | h
        · obtain ⟨f1, f2⟩ := floor_mul_neg p q h
          exact .negative (p / q).floor (by grind) (by grind) (by grind)
        · obtain ⟨f1, f2⟩ := floor_mul_pos p q h
          exact .positive (p / q).floor (by grind) (by grind) (by grind)

end FT
