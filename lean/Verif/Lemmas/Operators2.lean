import Verif.Lemmas.Operators
/-!
# Lemmas about operators: results of operators, columns, construction
-/
namespace FT
open Spec

/-! ### Cells -/

theorem holds_asNum {a : OCell} {x : Ext} (h : Holds a x) : a.asNum = .ok (some x) := by cases h <;> rfl

theorem asNum_holds {a : OCell} {x : Ext} (h : a.asNum = .ok (some x)) : Holds a x := by
  cases a with
  | missing => cases h
  | num y => simp only [OCell.asNum] at h; cases h; exact .num _
  | bool b => cases b <;> simp only [OCell.asNum] at h <;> cases h <;> constructor
  | str s => cases h

theorem holds_iff (a : OCell) (x : Ext) : Holds a x ↔ a.asNum = .ok (some x) := ⟨holds_asNum, asNum_holds⟩

/-- A cell that is not text is missing or holds a number. -/
theorem notText_cases {a : OCell} (h : NotText a) : a = .missing ∨ ∃ x, Holds a x := by
  cases a with
  | missing => exact .inl rfl
  | num x => exact .inr ⟨x, .num x⟩
  | bool b => cases b <;> exact .inr ⟨_, by constructor⟩
  | str s => exact absurd rfl (h s)

theorem holds_notText {a : OCell} {x : Ext} (h : Holds a x) : NotText a := by intro s hs; subst hs; cases h

theorem holds_not_missing {a : OCell} {x : Ext} (h : Holds a x) : a ≠ .missing := by intro hs; subst hs; cases h

theorem arith_holds {f : Ext → Ext → Option Ext} {a b : OCell} {x y : Ext} (ha : Holds a x) (hb : Holds b y) :
    arith f a b = .ok (OCell.ofNum (f x y)) := by
  simp [arith, holds_asNum ha, holds_asNum hb, Except.bind]

theorem arith_missing {f : Ext → Ext → Option Ext} {a b : OCell} (h : SomeMissing a b) : arith f a b = .ok .missing := by
  obtain ⟨ha, hb, hm⟩ := h
  rcases hm with rfl | rfl
  · rcases notText_cases hb with rfl | ⟨y, hy⟩
    · rfl
    · simp only [arith, holds_asNum hy]; rfl
  · rcases notText_cases ha with rfl | ⟨y, hy⟩
    · rfl
    · simp only [arith, holds_asNum hy]; rfl

theorem ltCell_missing_left (b : OCell) : ltCell .missing b = .ok false := by cases b <;> rfl
theorem ltCell_missing_right (b : OCell) : ltCell b .missing = .ok false := by cases b <;> rfl
theorem leCell_missing_left (b : OCell) : leCell .missing b = .ok false := by cases b <;> rfl
theorem leCell_missing_right (b : OCell) : leCell b .missing = .ok false := by cases b <;> rfl

theorem ltCell_holds {a b : OCell} {x y : Ext} (ha : Holds a x) (hb : Holds b y) : ltCell a b = .ok (x.lt y) := by
  cases ha <;> cases hb <;> rfl

theorem leCell_holds {a b : OCell} {x y : Ext} (ha : Holds a x) (hb : Holds b y) : leCell a b = .ok (!y.lt x) := by
  cases ha <;> cases hb <;> rfl

theorem holds_functional {a : OCell} {x y : Ext} (h : Holds a x) (h' : Holds a y) : x = y := by
  have := holds_asNum h
  rw [holds_asNum h'] at this
  cases this; rfl

theorem before_holds {a b : OCell} {x y : Ext} (ha : Holds a x) (hb : Holds b y) : Precedes a b ↔ SmallerThan x y := by
  constructor
  · rintro (⟨x', y', hx, hy, h⟩ | ⟨s, t, rfl, _, _⟩)
    · rw [holds_functional ha hx, holds_functional hb hy]; exact h
    · cases ha
  · intro h; exact .inl ⟨x, y, ha, hb, h⟩

theorem same_holds {a b : OCell} {x y : Ext} (ha : Holds a x) (hb : Holds b y) : Same a b ↔ x = y := by
  constructor
  · rintro (⟨z, hx, hy⟩ | ⟨s, rfl, _⟩)
    · rw [holds_functional ha hx, holds_functional hb hy]
    · cases ha
  · rintro rfl; exact .inl ⟨x, ha, hb⟩

theorem before_missing (a b : OCell) (h : a = .missing ∨ b = .missing) : ¬ Precedes a b := by
  rintro (⟨x, y, hx, hy, _⟩ | ⟨s, t, rfl, rfl, _⟩)
  · rcases h with rfl | rfl
    · cases hx
    · cases hy
  · rcases h with h | h <;> cases h

theorem same_missing (a b : OCell) (h : a = .missing ∨ b = .missing) : ¬ Same a b := by
  rintro (⟨x, hx, hy⟩ | ⟨s, rfl, rfl⟩)
  · rcases h with rfl | rfl
    · cases hx
    · cases hy
  · rcases h with h | h <;> cases h

theorem before_str (s t : String) : Precedes (.str s) (.str t) ↔ s < t := by
  constructor
  · rintro (⟨x, y, hx, _, _⟩ | ⟨s', t', hs, ht, h⟩)
    · cases hx
    · cases hs; cases ht; exact h
  · intro h; exact .inr ⟨s, t, rfl, rfl, h⟩

theorem same_str (s t : String) : Same (.str s) (.str t) ↔ s = t := by
  constructor
  · rintro (⟨x, hx, _⟩ | ⟨s', hs, ht⟩)
    · cases hx
    · cases hs; cases ht; rfl
  · rintro rfl; exact .inr ⟨s, rfl, rfl⟩

theorem same_comm (a b : OCell) : Same a b ↔ Same b a := by
  unfold Same
  constructor
  · rintro (⟨x, h1, h2⟩ | ⟨s, h1, h2⟩)
    · exact .inl ⟨x, h2, h1⟩
    · exact .inr ⟨s, h2, h1⟩
  · rintro (⟨x, h1, h2⟩ | ⟨s, h1, h2⟩)
    · exact .inl ⟨x, h2, h1⟩
    · exact .inr ⟨s, h2, h1⟩

theorem string_le_iff (s t : String) : (¬ t < s) ↔ s < t ∨ s = t := by
  constructor
  · intro h
    by_cases hst : s < t
    · exact .inl hst
    · exact .inr (String.le_antisymm h hst)
  · rintro (h | rfl)
    · exact fun h' => String.lt_asymm h h'
    · exact String.lt_irrefl _

/-- `a < b` as computed and as specified. -/
theorem ltCell_spec {a b : OCell} (h : Comparable a b) : ∃ v, ltCell a b = .ok v ∧ (v = true ↔ Precedes a b) := by
  have hmiss : (a = .missing ∨ b = .missing) → ∃ v, ltCell a b = .ok v ∧ (v = true ↔ Precedes a b) := by
    intro hm
    refine ⟨false, ?_, by simp [before_missing a b hm]⟩
    rcases hm with rfl | rfl
    · exact ltCell_missing_left b
    · exact ltCell_missing_right a
  rcases h with ⟨ha, hb⟩ | ⟨s, t, rfl, rfl⟩ | hm | hm
  · rcases notText_cases ha with rfl | ⟨x, hx⟩
    · exact hmiss (.inl rfl)
    rcases notText_cases hb with rfl | ⟨y, hy⟩
    · exact hmiss (.inr rfl)
    exact ⟨_, ltCell_holds hx hy, by rw [below_iff, before_holds hx hy]⟩
  · exact ⟨_, rfl, by rw [before_str]; simp⟩
  · exact hmiss (.inl hm)
  · exact hmiss (.inr hm)

/-- `a <= b` as computed and as specified. -/
theorem leCell_spec {a b : OCell} (h : Comparable a b) : ∃ v, leCell a b = .ok v ∧ (v = true ↔ Precedes a b ∨ Same a b) := by
  have hmiss : (a = .missing ∨ b = .missing) → ∃ v, leCell a b = .ok v ∧ (v = true ↔ Precedes a b ∨ Same a b) := by
    intro hm
    refine ⟨false, ?_, by simp [before_missing a b hm, same_missing a b hm]⟩
    rcases hm with rfl | rfl
    · exact leCell_missing_left b
    · exact leCell_missing_right a
  rcases h with ⟨ha, hb⟩ | ⟨s, t, rfl, rfl⟩ | hm | hm
  · rcases notText_cases ha with rfl | ⟨x, hx⟩
    · exact hmiss (.inl rfl)
    rcases notText_cases hb with rfl | ⟨y, hy⟩
    · exact hmiss (.inr rfl)
    exact ⟨_, leCell_holds hx hy, by rw [not_below_iff, before_holds hx hy, same_holds hx hy]⟩
  · refine ⟨_, rfl, ?_⟩
    rw [before_str, same_str, ← string_le_iff]; simp
  · exact hmiss (.inl hm)
  · exact hmiss (.inr hm)

theorem eqCell_spec (a b : OCell) : eqCell a b = true ↔ Same a b := by
  by_cases hm : a = .missing ∨ b = .missing
  · have : eqCell a b = false := by
      rcases hm with rfl | rfl
      · cases b <;> rfl
      · cases a <;> rfl
    simp [this, same_missing a b hm]
  · have ha : a ≠ .missing := fun h => hm (.inl h)
    have hb : b ≠ .missing := fun h => hm (.inr h)
    by_cases hat : NotText a
    · obtain ⟨x, hx⟩ := (notText_cases hat).resolve_left ha
      by_cases hbt : NotText b
      · obtain ⟨y, hy⟩ := (notText_cases hbt).resolve_left hb
        have : eqCell a b = decide (a.asNum = b.asNum) := by cases hx <;> cases hy <;> rfl
        rw [this, same_holds hx hy, holds_asNum hx, holds_asNum hy]
        simp
      · obtain ⟨t, rfl⟩ : ∃ t, b = .str t := by
          cases b with
          | str t => exact ⟨t, rfl⟩
          | _ => exact absurd (by intro s; simp) hbt
        have : eqCell a (.str t) = false := by cases hx <;> rfl
        rw [this]
        constructor
        · intro h; cases h
        · rintro (⟨z, _, hz⟩ | ⟨s, rfl, _⟩)
          · cases hz
          · cases hx
    · obtain ⟨s, rfl⟩ : ∃ t, a = .str t := by
        cases a with
        | str t => exact ⟨t, rfl⟩
        | _ => exact absurd (by intro s; simp) hat
      cases b with
      | missing => exact absurd rfl hb
      | str t => rw [same_str]; simp [eqCell]
      | num y =>
        constructor
        · intro h; cases h
        · rintro (⟨z, hz, _⟩ | ⟨s, _, h⟩)
          · cases hz
          · cases h
      | bool p =>
        constructor
        · intro h; cases h
        · rintro (⟨z, hz, _⟩ | ⟨s, _, h⟩)
          · cases hz
          · cases h

theorem comparable_swap {a b : OCell} (h : Comparable a b) : Comparable b a := by
  rcases h with ⟨h1, h2⟩ | ⟨s, t, h1, h2⟩ | h | h
  · exact .inl ⟨h2, h1⟩
  · exact .inr (.inl ⟨t, s, h2, h1⟩)
  · exact .inr (.inr (.inr h))
  · exact .inr (.inr (.inl h))

/-- The operator on two cells, as the primitives compute it. -/
def cellOp : POp → OCell → OCell → Except PyErr OCell
  | .gt => fun a b => (ltCell b a).map .bool
  | .ge => fun a b => (leCell b a).map .bool
  | .lt => fun a b => (ltCell a b).map .bool
  | .le => fun a b => (leCell a b).map .bool
  | .eq => fun a b => .ok (.bool (eqCell a b))
  | .ne => fun a b => .ok (.bool (!eqCell a b))
  | .add => arith Ext.add
  | .sub => arith Ext.sub
  | .mul => arith Ext.mul
  | .div => arith Ext.div
  | .mod => arith Ext.mod
  | .and => fun a b => .ok (andCell a b)
  | .or => fun a b => .ok (orCell a b)

/-- Both cells booleans. -/
def BothBool (a b : OCell) : Prop := ∃ p q, a = .bool p ∧ b = .bool q

theorem bool_of_iff {p q : Bool} {P : Prop} (h : p = true ↔ P) (h' : q = true ↔ P) : p = q := by
  rw [Bool.eq_iff_iff, h, h']

/-- What the rules say is what is computed. -/
theorem result_cellOp {o : POp} {a b v : OCell} (h : Result o a b v) (hb : o = .mul → ¬ BothBool a b) :
    cellOp o a b = .ok v := by
  cases h with
  | lt hc hv =>
    obtain ⟨w, hw, he⟩ := ltCell_spec hc
    simp only [cellOp, hw, Except.map]; rw [bool_of_iff he hv]
  | gt hc hv =>
    obtain ⟨w, hw, he⟩ := ltCell_spec (comparable_swap hc)
    simp only [cellOp, hw, Except.map]; rw [bool_of_iff he hv]
  | le hc hv =>
    obtain ⟨w, hw, he⟩ := leCell_spec hc
    simp only [cellOp, hw, Except.map]; rw [bool_of_iff he hv]
  | ge hc hv =>
    obtain ⟨w, hw, he⟩ := leCell_spec (comparable_swap hc)
    simp only [cellOp, hw, Except.map]
    rw [same_comm b a] at he
    rw [bool_of_iff he hv]
  | eq hv => simp only [cellOp]; rw [bool_of_iff (eqCell_spec a b) hv]
  | ne hv =>
    rename_i w
    have hn : (!eqCell a b) = true ↔ ¬ Same a b := by
      rw [← eqCell_spec a b]; simp
    simp only [cellOp]
    rw [bool_of_iff hn hv]
  | add ha hb' hs => simp only [cellOp]; rw [arith_holds ha hb', sum_add hs]
  | sub ha hb' ho hs =>
    simp only [cellOp]; rw [arith_holds ha hb']
    rw [opposite_neg ho] at hs
    rw [← sum_add hs]; rfl
  | mul ha hb' _ hs => simp only [cellOp]; rw [arith_holds ha hb', product_mul hs]
  | mulBool p q => exact absurd ⟨p, q, rfl, rfl⟩ (hb rfl)
  | div ha hb' hs => simp only [cellOp]; rw [arith_holds ha hb', quotient_div hs]
  | mod ha hb' hs => simp only [cellOp]; rw [arith_holds ha hb', remainder_mod hs]
  | missing ho hm => rcases ho with rfl | rfl | rfl | rfl | rfl <;> exact arith_missing hm
  | and p q => cases p <;> rfl
  | or p q => cases p <;> rfl

/-- The values for which an operator has a result. -/
def Acceptable (o : POp) (a b : OCell) : Prop :=
  (IsOrder o ∧ Comparable a b) ∨ IsEquality o ∨ (IsArithmetic o ∧ NotText a ∧ NotText b ∧ (o = .mul → ¬ BothBool a b)) ∨
    ((o = .and ∨ o = .or) ∧ BothBool a b)

theorem result_exists {o : POp} {a b : OCell} (h : Acceptable o a b) : ∃ v, Result o a b v := by
  rcases h with ⟨ho, hc⟩ | ho | ⟨ho, ha, hb, hm⟩ | ⟨ho, p, q, rfl, rfl⟩
  · rcases ho with rfl | rfl | rfl | rfl
    · obtain ⟨w, _, he⟩ := ltCell_spec hc; exact ⟨_, .lt hc he⟩
    · obtain ⟨w, _, he⟩ := leCell_spec hc; exact ⟨_, .le hc he⟩
    · obtain ⟨w, _, he⟩ := ltCell_spec (comparable_swap hc); exact ⟨_, .gt hc he⟩
    · obtain ⟨w, _, he⟩ := leCell_spec (comparable_swap hc)
      rw [same_comm b a] at he
      exact ⟨_, .ge hc he⟩
  · rcases ho with rfl | rfl
    · exact ⟨_, .eq (eqCell_spec a b)⟩
    · exact ⟨.bool (!eqCell a b), .ne (by rw [← eqCell_spec a b]; simp)⟩
  · by_cases hmiss : a = .missing ∨ b = .missing
    · exact ⟨_, .missing ho ⟨ha, hb, hmiss⟩⟩
    · obtain ⟨x, hx⟩ := (notText_cases ha).resolve_left (fun h => hmiss (.inl h))
      obtain ⟨y, hy⟩ := (notText_cases hb).resolve_left (fun h => hmiss (.inr h))
      rcases ho with rfl | rfl | rfl | rfl | rfl
      · exact ⟨_, .add hx hy (sum_exists _ _)⟩
      · exact ⟨_, .sub hx hy (opposite_of y) (sum_exists _ _)⟩
      · exact ⟨_, .mul hx hy (hm rfl) (product_exists _ _)⟩
      · exact ⟨_, .div hx hy (quotient_exists _ _)⟩
      · exact ⟨_, .mod hx hy (remainder_exists _ _)⟩
  · rcases ho with rfl | rfl
    · exact ⟨_, .and p q⟩
    · exact ⟨_, .or p q⟩

theorem result_unique {o : POp} {a b v w : OCell} (h : Result o a b v) (h' : Result o a b w) : v = w := by
  by_cases hm : o = .mul ∧ BothBool a b
  · obtain ⟨rfl, p, q, rfl, rfl⟩ := hm
    have key : ∀ u, Result .mul (.bool p) (.bool q) u → u = .bool (p && q) := by
      intro u hu
      cases hu with
      | mul _ _ hn _ => exact absurd ⟨p, q, rfl, rfl⟩ hn
      | mulBool => rfl
      | missing _ hs =>
        rcases hs.2.2 with h | h <;> cases h
    rw [key v h, key w h']
  · have hn : o = .mul → ¬ BothBool a b := fun h1 h2 => hm ⟨h1, h2⟩
    have e1 := result_cellOp h hn
    rw [result_cellOp h' hn] at e1
    cases e1; rfl

end FT
