import Verif.Lemmas.CalcExample
/-! # Two more computations: a conditional windowed aggregation, and a group-by transform -/
namespace FT.CalcExample

/-- Is the amount greater than 6? -/
def big : TransPrim := { usesFull := false, usesCalcTime := false, fn := fun _ args => [(args.headD []).map fun v => .bool (decide (6 < numOf v))] }

theorem bigOk : Spec.TransShape big 1 ∧ Spec.Elementwise big 1 := by
  constructor
  · intro t args n hne hl
    cases args with
    | nil => exact absurd rfl hne
    | cons a args =>
      have := hl a (by simp)
      simp [big, this]
  · refine ⟨fun _ vs => [.bool (decide (6 < numOf (vs.headD .null)))], ?_⟩
    intro t args n hne hl
    cases args with
    | nil => exact absurd rfl hne
    | cons a args =>
      have hn := hl a (by simp)
      simp only [big, List.headD_cons, List.range_succ, List.range_zero, List.nil_append, List.map_cons, List.map_nil,
        List.cons.injEq, and_true]
      apply List.ext_getElem (by simp [hn])
      intro i h1 h2
      simp only [List.length_map] at h1
      simp [h1]

/-- Running sum of the column. -/
def running : Int → List Val → List Val
  | _, [] => []
  | s, v :: vs => .num (s + numOf v) :: running (s + numOf v) vs

theorem running_length (s : Int) (l : List Val) : (running s l).length = l.length := by
  induction l generalizing s with
  | nil => rfl
  | cons a l ih => simp [running, ih]

/-- CUM_SUM -/
def cumsum : TransPrim := { usesFull := true, usesCalcTime := false, fn := fun _ args => [running 0 (args.headD [])] }

theorem cumsumOk : Spec.TransShape cumsum 1 := by
  intro t args n hne hl
  cases args with
  | nil => exact absurd rfl hne
  | cons a args =>
    have := hl a (by simp)
    simp [cumsum, running_length, this]

end FT.CalcExample

namespace FT.CalcExample.Agg
open Spec

def isBig : Feat := .mk { entity := "sessions", name := "amount > 6", names := ["amount > 6"], dflt := .null, kind := .trans big } [amount] []
def recent : Feat := .mk { entity := "customers", name := "SUM(sessions.amount WHERE amount > 6, Last 4 Days)", names := ["SUM(sessions.amount WHERE amount > 6, Last 4 Days)"], dflt := .num 0, kind := .agg [rel] sum (some [("d", 4)]) true } [amount] [isBig]
def targets : List Feat := [recent]

theorem planned : ∀ {p f full}, Planned targets noHidden p f full →
    (p, f, full) ∈ ([([], recent, false), ([(false, rel)], amount, false), ([(false, rel)], isBig, false)] : List (List Edge × Feat × Bool)) := by
  intro p f full h
  induction h with
  | @target f hf _ =>
    simp only [targets, List.mem_cons, List.not_mem_nil, or_false] at hf
    subst hf
    have : recent.usesFull = false := rfl
    simp [this]
  | @dep p f full d e hp hd he _ ih =>
    simp only [List.mem_cons, Prod.mk.injEq, List.not_mem_nil, or_false] at ih
    rcases ih with ⟨rfl, rfl, rfl⟩ | ⟨rfl, rfl, rfl⟩ | ⟨rfl, rfl, rfl⟩
    · have hd' : d = amount ∨ d = isBig := by simpa [recent, Feat.bases, Feat.wh] using hd
      have hp : recent.path = [(false, rel)] := rfl
      rcases hd' with rfl | rfl
      · cases he
        have : amount.usesFull = false := rfl
        simp [this, hp]
      · cases he
        have : isBig.usesFull = false := rfl
        simp [this, hp]
    · simp [amount, Feat.bases, Feat.wh] at hd
    · have hd' : d = amount := by simpa [isBig, Feat.bases, Feat.wh] using hd
      have hp : isBig.path = [] := rfl
      rcases hd' with rfl
      · cases he
        have : amount.usesFull = false := rfl
        simp [this, hp]

theorem needed : ∀ {g}, NeededBy targets g → g = recent ∨ g = isBig ∨ g = amount := by
  rintro g ⟨f, hf, hn⟩
  simp only [targets, List.mem_cons, List.not_mem_nil, or_false] at hf
  have key : ∀ {f g}, Uses [] f g → (f = recent ∨ f = isBig ∨ f = amount) → g = recent ∨ g = isBig ∨ g = amount := by
    intro f g h
    induction h with
    | direct hd hn =>
      rintro (rfl | rfl | rfl)
      all_goals simp [recent, isBig, amount, Feat.bases, Feat.wh] at hd
      all_goals try rcases hd with rfl | rfl
      all_goals try subst hd
      all_goals simp [recent, isBig, amount]
    | deep hd hn _ ih =>
      rintro (rfl | rfl | rfl)
      all_goals simp [recent, isBig, amount, Feat.bases, Feat.wh] at hd
      all_goals try rcases hd with rfl | rfl
      all_goals try subst hd
      all_goals exact ih (by simp [recent, isBig, amount])
  rcases hn with rfl | hu
  · subst hf; simp
  · exact key hu (by subst hf; simp)

theorem wf : ∀ g, NeededBy targets g → WellFormed env g := by
  intro g hg
  rcases needed hg with rfl | rfl | rfl
  · refine ⟨by decide, by decide, customersOk, ?_, by simp, by simp [recent, Feat.bases], by decide, ?_, ?_, .inl rfl, fun _ _ => rfl⟩
    · intro r hr
      have : r = rel := by simpa using hr
      subst this; exact relOk
    · refine ⟨"sessions", PathDown.last rel, ?_⟩
      intro d hd
      have hd' : d = amount ∨ d = isBig := by simpa [recent, Feat.bases, Feat.wh] using hd
      rcases hd' with rfl | rfl <;> exact ⟨rfl, rfl⟩
    · intro times h; cases h; exact ⟨"d", 4, rfl, by decide⟩
  · refine ⟨by decide, by decide, sessionsOk, by simp [isBig, Feat.bases], rfl, ?_, bigOk.1, fun _ => bigOk.2⟩
    intro d hd
    have hd' : d = amount := by simpa [isBig, Feat.bases] using hd
    subst hd'
    exact ⟨rfl, rfl, fun n h => by cases h⟩
  · refine ⟨by decide, by decide, sessionsOk, rfl, rfl, rfl, rfl, ?_⟩
    intro x h; have := entS h; subst this; decide

theorem regular : Regular env targets "customers" where
  targetEntity := by
    intro f hf
    simp only [targets, List.mem_cons, List.not_mem_nil, or_false] at hf
    subst hf; rfl
  noSlice := by
    intro f hf n h
    simp only [targets, List.mem_cons, List.not_mem_nil, or_false] at hf
    subst hf; cases h
  entityOk := customersOk
  window := rfl
  names := by
    intro a b ha hb h
    rcases needed ha with rfl | rfl | rfl <;> rcases needed hb with rfl | rfl | rfl <;>
      first
      | rfl
      | (exfalso; revert h; decide)
  wf := wf
  notKey := by
    intro p f full hp hi
    have := planned hp
    simp only [List.mem_cons, Prod.mk.injEq, List.not_mem_nil, or_false] at this
    rcases this with ⟨rfl, rfl, rfl⟩ | ⟨rfl, rfl, rfl⟩ | ⟨rfl, rfl, rfl⟩ <;>
      first
      | decide
      | cases hi
  disjoint := by
    intro p f g full full' hf hg hne
    have hf := planned hf
    have hg := planned hg
    simp only [List.mem_cons, Prod.mk.injEq, List.not_mem_nil, or_false] at hf hg
    rcases hf with ⟨rfl, rfl, rfl⟩ | ⟨rfl, rfl, rfl⟩ | ⟨rfl, rfl, rfl⟩ <;>
      rcases hg with ⟨_, rfl, rfl⟩ | ⟨_, rfl, rfl⟩ | ⟨_, rfl, rfl⟩ <;>
      first
      | decide
      | exact absurd rfl hne
  linkNotKey := by
    intro p q f full hp l hl hlen
    have := planned hp
    simp only [List.mem_cons, Prod.mk.injEq, List.not_mem_nil, or_false] at this
    have hpre : p = [] ∨ p = [(false, rel)] := by
      have key : p <+: [(false, rel)] := by
        rcases this with ⟨h, _⟩ | ⟨h, _⟩ | ⟨h, _⟩ <;> exact (List.prefix_append p q).trans (by rw [h]; first | exact List.nil_prefix | exact List.prefix_refl _)
      match p, key with
      | [], _ => exact .inl rfl
      | [a], h => simp at h; simp [h]
      | a :: b :: l, h => have := h.length_le; simp at this
    rcases hpre with rfl | rfl
    · cases hl
    · simp [linksFrom, linkStep] at hl
      subst hl
      simp at hlen
  linkClash := by
    intro p f full hp l hl hlen
    have := planned hp
    simp only [List.mem_cons, Prod.mk.injEq, List.not_mem_nil, or_false] at this
    rcases this with ⟨rfl, rfl, rfl⟩ | ⟨rfl, rfl, rfl⟩ | ⟨rfl, rfl, rfl⟩ <;>
      simp [linksFrom, linkStep] at hl
    all_goals
      subst hl
      simp at hlen
  paths := by
    intro p f g full full' hf hg hc _
    have hf := planned hf
    have hg := planned hg
    simp only [List.mem_cons, Prod.mk.injEq, List.not_mem_nil, or_false] at hf hg
    rcases hf with ⟨rfl, rfl, rfl⟩ | ⟨rfl, rfl, rfl⟩ | ⟨rfl, rfl, rfl⟩ <;>
      rcases hg with ⟨_, rfl, rfl⟩ | ⟨_, rfl, rfl⟩ | ⟨_, rfl, rfl⟩ <;>
      first
      | rfl
      | (exfalso; revert hc; decide)
  directBases := by
    rintro p f g full full' hf hg ⟨r, hk, hk'⟩ hne
    have hf := planned hf
    simp only [List.mem_cons, Prod.mk.injEq, List.not_mem_nil, or_false] at hf
    rcases hf with ⟨rfl, rfl, rfl⟩ | ⟨rfl, rfl, rfl⟩ | ⟨rfl, rfl, rfl⟩ <;> cases hk
end FT.CalcExample.Agg

namespace FT.CalcExample.Group
open Spec

def customer : Feat := .mk { entity := "sessions", name := "customer_id", names := ["customer_id"], dflt := .null, kind := .identity "customer_id" } [] []
def byCustomer : Feat := .mk { entity := "sessions", name := "CUM_SUM(amount) by customer_id", names := ["CUM_SUM(amount) by customer_id"], dflt := .null, kind := .groupby cumsum } [amount, customer] []
def targets : List Feat := [byCustomer]

theorem planned : ∀ {p f full}, Planned targets noHidden p f full →
    (p, f, full) ∈ ([([], byCustomer, true), ([], amount, true), ([], customer, true)] : List (List Edge × Feat × Bool)) := by
  intro p f full h
  induction h with
  | @target f hf _ =>
    simp only [targets, List.mem_cons, List.not_mem_nil, or_false] at hf
    subst hf
    have : byCustomer.usesFull = true := rfl
    simp [this]
  | @dep p f full d e hp hd he _ ih =>
    simp only [List.mem_cons, Prod.mk.injEq, List.not_mem_nil, or_false] at ih
    rcases ih with ⟨rfl, rfl, rfl⟩ | ⟨rfl, rfl, rfl⟩ | ⟨rfl, rfl, rfl⟩
    · have hd' : d = amount ∨ d = customer := by simpa [byCustomer, Feat.bases, Feat.wh] using hd
      have hp : byCustomer.path = [] := rfl
      rcases hd' with rfl | rfl
      · cases he
        have : amount.usesFull = false := rfl
        simp [this, hp]
      · cases he
        have : customer.usesFull = false := rfl
        simp [this, hp]
    · simp [amount, Feat.bases, Feat.wh] at hd
    · simp [customer, Feat.bases, Feat.wh] at hd

theorem needed : ∀ {g}, NeededBy targets g → g = byCustomer ∨ g = amount ∨ g = customer := by
  rintro g ⟨f, hf, hn⟩
  simp only [targets, List.mem_cons, List.not_mem_nil, or_false] at hf
  have key : ∀ {f g}, Uses [] f g → (f = byCustomer ∨ f = amount ∨ f = customer) → g = byCustomer ∨ g = amount ∨ g = customer := by
    intro f g h
    induction h with
    | direct hd hn =>
      rintro (rfl | rfl | rfl)
      all_goals simp [byCustomer, amount, customer, Feat.bases, Feat.wh] at hd
      all_goals try rcases hd with rfl | rfl
      all_goals try subst hd
      all_goals simp [byCustomer, amount, customer]
    | deep hd hn _ ih =>
      rintro (rfl | rfl | rfl)
      all_goals simp [byCustomer, amount, customer, Feat.bases, Feat.wh] at hd
      all_goals try rcases hd with rfl | rfl
      all_goals try subst hd
      all_goals exact ih (by simp [byCustomer, amount, customer])
  rcases hn with rfl | hu
  · subst hf; simp
  · exact key hu (by subst hf; simp)

theorem wf : ∀ g, NeededBy targets g → WellFormed env g := by
  intro g hg
  rcases needed hg with rfl | rfl | rfl
  · refine ⟨by decide, by decide, sessionsOk, by simp [byCustomer, Feat.bases], rfl, ?_, cumsumOk, fun h => by cases h⟩
    intro d hd
    have hd' : d = amount ∨ d = customer := by simpa [byCustomer, Feat.bases] using hd
    rcases hd' with rfl | rfl <;> exact ⟨rfl, rfl, fun n h => by cases h⟩
  · refine ⟨by decide, by decide, sessionsOk, rfl, rfl, rfl, rfl, ?_⟩
    intro x h; have := entS h; subst this; decide
  · refine ⟨by decide, by decide, sessionsOk, rfl, rfl, rfl, rfl, ?_⟩
    intro x h; have := entS h; subst this; decide

theorem regular : Regular env targets "sessions" where
  targetEntity := by
    intro f hf
    simp only [targets, List.mem_cons, List.not_mem_nil, or_false] at hf
    subst hf; rfl
  noSlice := by
    intro f hf n h
    simp only [targets, List.mem_cons, List.not_mem_nil, or_false] at hf
    subst hf; cases h
  entityOk := sessionsOk
  window := rfl
  names := by
    intro a b ha hb h
    rcases needed ha with rfl | rfl | rfl <;> rcases needed hb with rfl | rfl | rfl <;>
      first
      | rfl
      | (exfalso; revert h; decide)
  wf := wf
  notKey := by
    intro p f full hp hi
    have := planned hp
    simp only [List.mem_cons, Prod.mk.injEq, List.not_mem_nil, or_false] at this
    rcases this with ⟨rfl, rfl, rfl⟩ | ⟨rfl, rfl, rfl⟩ | ⟨rfl, rfl, rfl⟩ <;>
      first
      | decide
      | cases hi
  disjoint := by
    intro p f g full full' hf hg hne
    have hf := planned hf
    have hg := planned hg
    simp only [List.mem_cons, Prod.mk.injEq, List.not_mem_nil, or_false] at hf hg
    rcases hf with ⟨rfl, rfl, rfl⟩ | ⟨rfl, rfl, rfl⟩ | ⟨rfl, rfl, rfl⟩ <;>
      rcases hg with ⟨_, rfl, rfl⟩ | ⟨_, rfl, rfl⟩ | ⟨_, rfl, rfl⟩ <;>
      first
      | decide
      | exact absurd rfl hne
  linkNotKey := by
    intro p q f full hp l hl hlen
    have := planned hp
    simp only [List.mem_cons, Prod.mk.injEq, List.not_mem_nil, or_false] at this
    have hpre : p = [] ∨ p = [(false, rel)] := by
      have key : p <+: [(false, rel)] := by
        rcases this with ⟨h, _⟩ | ⟨h, _⟩ | ⟨h, _⟩ <;> exact (List.prefix_append p q).trans (by rw [h]; first | exact List.nil_prefix | exact List.prefix_refl _)
      match p, key with
      | [], _ => exact .inl rfl
      | [a], h => simp at h; simp [h]
      | a :: b :: l, h => have := h.length_le; simp at this
    rcases hpre with rfl | rfl
    · cases hl
    · simp [linksFrom, linkStep] at hl
      subst hl
      simp at hlen
  linkClash := by
    intro p f full hp l hl hlen
    have := planned hp
    simp only [List.mem_cons, Prod.mk.injEq, List.not_mem_nil, or_false] at this
    rcases this with ⟨rfl, rfl, rfl⟩ | ⟨rfl, rfl, rfl⟩ | ⟨rfl, rfl, rfl⟩ <;>
      simp [linksFrom, linkStep] at hl
    all_goals
      subst hl
      simp at hlen
  paths := by
    intro p f g full full' hf hg hc _
    have hf := planned hf
    have hg := planned hg
    simp only [List.mem_cons, Prod.mk.injEq, List.not_mem_nil, or_false] at hf hg
    rcases hf with ⟨rfl, rfl, rfl⟩ | ⟨rfl, rfl, rfl⟩ | ⟨rfl, rfl, rfl⟩ <;>
      rcases hg with ⟨_, rfl, rfl⟩ | ⟨_, rfl, rfl⟩ | ⟨_, rfl, rfl⟩ <;>
      first
      | rfl
      | (exfalso; revert hc; decide)
  directBases := by
    rintro p f g full full' hf hg ⟨r, hk, hk'⟩ hne
    have hf := planned hf
    simp only [List.mem_cons, Prod.mk.injEq, List.not_mem_nil, or_false] at hf
    rcases hf with ⟨rfl, rfl, rfl⟩ | ⟨rfl, rfl, rfl⟩ | ⟨rfl, rfl, rfl⟩ <;> cases hk
end FT.CalcExample.Group
