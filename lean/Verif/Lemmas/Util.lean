import Verif.Spec.Util
import Verif.Lemmas.Timedelta
namespace FT

/-! ### Version strings -/

theorem splitDot_ne_nil (s : List Char) : splitDot s ≠ [] := by
  cases s with
  | nil => simp [splitDot]
  | cons c cs =>
    unfold splitDot
    split
    · simp
    · cases splitDot cs <;> simp

theorem splitDot_word (w : List Char) (h : '.' ∉ w) : splitDot w = [w] := by
  induction w with
  | nil => rfl
  | cons c cs ih =>
    simp only [List.mem_cons, not_or] at h
    have : ¬ c = '.' := fun e => h.1 e.symm
    simp [splitDot, ih h.2, this]

theorem splitDot_append (w rest : List Char) (h : '.' ∉ w) : splitDot (w ++ '.' :: rest) = w :: splitDot rest := by
  induction w with
  | nil => simp [splitDot]
  | cons c cs ih =>
    simp only [List.mem_cons, not_or] at h
    have : ¬ c = '.' := fun e => h.1 e.symm
    simp [splitDot, ih h.2, this]

theorem dot_not_mem_repr (n : Nat) : '.' ∉ (Nat.repr n).toList := by
  intro h
  rw [Nat.toList_repr] at h
  have := Nat.isDigit_of_mem_toDigits (by omega) (by omega) h
  revert this; decide

theorem splitDot_show (v : List Nat) (hv : v ≠ []) :
    splitDot (Spec.showVersion v).toList = v.map fun n => (Nat.repr n).toList := by
  induction v with
  | nil => exact absurd rfl hv
  | cons n v ih =>
    cases v with
    | nil =>
      have : Spec.showVersion [n] = Nat.repr n := by simp [Spec.showVersion]
      rw [this, splitDot_word _ (dot_not_mem_repr n)]; rfl
    | cons m v =>
      have : (Spec.showVersion (n :: m :: v)).toList =
          (Nat.repr n).toList ++ '.' :: (Spec.showVersion (m :: v)).toList := by
        simp [Spec.showVersion, String.intercalate_cons_cons]
      rw [this, splitDot_append _ _ (dot_not_mem_repr n), ih (by simp)]
      rfl

theorem strLt_irrefl (a : List Char) : strLt a a = false := by
  induction a with
  | nil => rfl
  | cons c cs ih => simp [strLt, ih]

/-- Value of a digit. -/
def digitOf (c : Char) : Nat := c.toNat - 48

/-- Value of a digit string. -/
def digitsVal (acc : Nat) (cs : List Char) : Nat := Nat.ofDigitChars 10 cs acc

/-- `10 ^ n` -/
def pow10 : Nat → Nat
  | 0 => 1
  | n + 1 => 10 * pow10 n

theorem digitsVal_nil (acc : Nat) : digitsVal acc [] = acc := rfl
theorem digitsVal_cons (acc : Nat) (c : Char) (cs : List Char) :
    digitsVal acc (c :: cs) = digitsVal (10 * acc + digitOf c) cs := by
  unfold digitsVal Nat.ofDigitChars
  rw [List.foldl_cons]; rfl
theorem pow10_succ (n : Nat) : pow10 (n + 1) = 10 * pow10 n := rfl
theorem strLt_cons (a b : Char) (as bs : List Char) : strLt (a :: as) (b :: bs) =
  if a.toNat < b.toNat then true else if b.toNat < a.toNat then false else strLt as bs := rfl

theorem mul_ten_aux (a b p : Nat) (h : 10 * a ≤ b) : a * (10 * p) ≤ b * p := by
  have : 10 * a * p ≤ b * p := Nat.mul_le_mul_right p h
  rw [Nat.mul_left_comm]
  rw [Nat.mul_assoc] at this
  exact this

theorem mul_ten_aux' (a b p : Nat) (h : b ≤ 10 * a) : b * p ≤ a * (10 * p) := by
  have : b * p ≤ 10 * a * p := Nat.mul_le_mul_right p h
  rw [Nat.mul_left_comm]
  rw [Nat.mul_assoc] at this
  exact this

theorem digitsVal_bounds (cs : List Char) (h : ∀ c ∈ cs, digitOf c ≤ 9) (acc : Nat) :
    acc * pow10 cs.length ≤ digitsVal acc cs ∧ digitsVal acc cs < (acc + 1) * pow10 cs.length := by
  induction cs generalizing acc with
  | nil => rw [digitsVal_nil]; show acc * 1 ≤ acc ∧ acc < (acc + 1) * 1; omega
  | cons c cs ih =>
    have hc := h c (by simp)
    have ih := ih (fun x hx => h x (by simp [hx]))
    rw [digitsVal_cons, List.length_cons, pow10_succ]
    generalize digitOf c = d at hc ⊢
    generalize pow10 cs.length = p at ih ⊢
    obtain ⟨h1, h2⟩ := ih (10 * acc + d)
    exact ⟨Nat.le_trans (mul_ten_aux _ _ _ (by omega)) h1, Nat.lt_of_lt_of_le h2 (mul_ten_aux' _ _ _ (by omega))⟩

theorem strLt_digits (as bs : List Char) (hl : as.length = bs.length)
    (ha : ∀ c ∈ as, 48 ≤ c.toNat ∧ digitOf c ≤ 9) (hb : ∀ c ∈ bs, 48 ≤ c.toNat ∧ digitOf c ≤ 9) (acc : Nat) :
    strLt as bs = true ↔ digitsVal acc as < digitsVal acc bs := by
  induction as generalizing bs acc with
  | nil =>
    cases bs with
    | nil => rw [digitsVal_nil]; simp [show strLt [] [] = false from rfl]
    | cons b bs => simp at hl
  | cons a as ih =>
    cases bs with
    | nil => simp at hl
    | cons b bs =>
      have ha0 := ha a (by simp)
      have hb0 := hb b (by simp)
      have hl' : as.length = bs.length := by simpa using hl
      have ea : a.toNat = digitOf a + 48 := by unfold digitOf; omega
      have eb : b.toNat = digitOf b + 48 := by unfold digitOf; omega
      have hA := digitsVal_bounds as (fun x hx => (ha x (by simp [hx])).2) (10 * acc + digitOf a)
      have hB := digitsVal_bounds bs (fun x hx => (hb x (by simp [hx])).2) (10 * acc + digitOf b)
      rw [← hl'] at hB
      have ih := fun acc => ih bs hl' (fun x hx => ha x (by simp [hx])) (fun x hx => hb x (by simp [hx])) acc
      rw [strLt_cons, digitsVal_cons, digitsVal_cons, ea, eb]
      generalize digitOf a = x at *
      generalize digitOf b = y at *
      by_cases h1 : x < y
      · have h1' : x + 48 < y + 48 := by omega
        simp only [h1', if_true, true_iff]
        have := Nat.mul_le_mul_right (pow10 as.length) (show 10 * acc + x + 1 ≤ 10 * acc + y by omega)
        exact Nat.lt_of_lt_of_le hA.2 (Nat.le_trans this hB.1)
      · have h1' : ¬ x + 48 < y + 48 := by omega
        by_cases h2 : y < x
        · have h2' : y + 48 < x + 48 := by omega
          simp only [h1', if_false, h2', if_true, Bool.false_eq_true, false_iff]
          have := Nat.mul_le_mul_right (pow10 as.length) (show 10 * acc + y + 1 ≤ 10 * acc + x by omega)
          exact Nat.not_lt.mpr (Nat.le_of_lt (Nat.lt_of_lt_of_le hB.2 (Nat.le_trans this hA.1)))
        · have he : x = y := by omega
          subst he
          simp only [Nat.lt_irrefl, if_false]
          exact ih _

theorem repr_digits (n : Nat) : ∀ c ∈ (Nat.repr n).toList, 48 ≤ c.toNat ∧ digitOf c ≤ 9 := by
  intro c hc
  rw [Nat.toList_repr] at hc
  have := Nat.isDigit_of_mem_toDigits (by omega) (by omega) hc
  rw [Char.isDigit_iff_toNat] at this
  unfold digitOf
  have h : c.toNat ≤ 57 := this.2
  have h' : 48 ≤ c.toNat := this.1
  exact ⟨h', by omega⟩

theorem digitsVal_repr (n : Nat) : digitsVal 0 (Nat.repr n).toList = n := by
  rw [digitsVal, Nat.toList_repr, Nat.ofDigitChars_ten_toDigits]

theorem strLt_repr (a b : Nat) (h : (Nat.repr a).length = (Nat.repr b).length) :
    strLt (Nat.repr a).toList (Nat.repr b).toList = decide (a < b) := by
  have := strLt_digits _ _ (by rw [String.length_toList, String.length_toList]; exact h) (repr_digits a) (repr_digits b) 0
  rw [digitsVal_repr, digitsVal_repr] at this
  by_cases hab : a < b
  · rw [this.mpr hab]; simp [hab]
  · simp only [hab, decide_false]
    cases hc : strLt (Nat.repr a).toList (Nat.repr b).toList with
    | false => rfl
    | true => exact absurd (this.mp hc) hab

/-! ### Duplicates -/

theorem noDup_iff {α : Type} [DecidableEq α] (l : List α) : noDup l = true ↔ l.Nodup := by
  induction l with
  | nil => simp [noDup]
  | cons a as ih => simp [noDup, ih]

/-! ### Evenly spaced ranges -/

theorem spaced_map_range (w c : Int) (n : Nat) : Spec.Spaced w ((List.range n).map fun j : Nat => c + w * (j : Int)) := by
  induction n generalizing c with
  | zero => simp [Spec.Spaced]
  | succ n ih =>
    rw [List.range_succ_eq_map, List.map_cons, List.map_map]
    have : ((fun j : Nat => c + w * (j : Int)) ∘ Nat.succ) = fun j : Nat => (c + w) + w * (j : Int) := by
      funext j
      simp only [Function.comp, Nat.succ_eq_add_one, Int.natCast_add, Int.mul_add]
      simp; omega
    rw [this]
    cases n with
    | zero => simp [Spec.Spaced]
    | succ n =>
      have h := ih (c + w)
      rw [List.range_succ_eq_map, List.map_cons] at h ⊢
      refine ⟨?_, h⟩
      simp

theorem rangeToEnd_eq (stop : Int) (n : Nat) (w : Int) :
    rangeToEnd stop n w = (List.range n).map fun j : Nat => (stop - w * ((n : Int) - 1)) + w * (j : Int) := by
  unfold rangeToEnd
  apply List.map_congr_left
  intro j _
  rw [Int.mul_sub]
  omega

end FT
