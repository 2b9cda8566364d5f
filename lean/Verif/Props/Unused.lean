import Verif.Lemmas.Unused
/-! # The report of unused primitives (C47) -/
namespace FT
open FT.Spec

/-- C47: what is recorded as used is what is used, for features whose names tell them apart. Features have the shape the code gives
them; a slice is never taken from a slice. -/
theorem C47_used_partial (fs : List DFeat) (hp : ∀ f ∈ fs, Proper f) (hn : NamesTell fs)
    (hs : ∀ f ∈ fs, ∀ g, DepUses [] f g → ∀ i, g.kind = .slice i → ∀ d ∈ g.bases, ∀ j, d.kind ≠ .slice j) (n : String) :
    (n ∈ (categorize fs).transform ↔ UsedAs .transform n fs) ∧ (n ∈ (categorize fs).agg ↔ UsedAs .aggregation n fs) ∧
      (n ∈ (categorize fs).groupby ↔ UsedAs .groupby n fs) ∧ (n ∈ (categorize fs).whered ↔ UsedAs .whered n fs) := by
  have key : ∀ r, n ∈ (categorize fs).of r ↔ UsedAs r n fs := by
    intro r
    have hU : ∀ g, (∃ f ∈ fs, DepUses [] f g) → Proper g ∧ ∀ d ∈ g.bases ++ g.wh, ∃ f ∈ fs, DepUses [] f d := by
      rintro g ⟨f, hf, hu⟩
      exact ⟨uses_proper hu (hp f hf), fun d hd => ⟨f, hf, uses_trans hu (.dep (by simp) hd (.self (by simp)))⟩⟩
    have hN : ∀ g g', (∃ f ∈ fs, DepUses [] f g) → (∃ f ∈ fs, DepUses [] f g') → g.name = g'.name → g = g' := by
      rintro g g' ⟨f, hf, hu⟩ ⟨f', hf', hu'⟩
      exact hn f hf f' hf' g g' hu hu'
    have hS : ∀ g, (∃ f ∈ fs, DepUses [] f g) → ∀ i, g.kind = .slice i → ∀ d ∈ g.bases, ∀ j, d.kind ≠ .slice j := by
      rintro g ⟨f, hf, hu⟩
      exact hs f hf g hu
    have h0 : Searched (fun g => ∃ f ∈ fs, DepUses [] f g) [] {} :=
      ⟨fun r n h => (by cases r <;> cases h), fun n h => (by cases h), fun g _ h => (by cases h), fun g _ h => (by cases h)⟩
    have hself : ∀ f ∈ fs, ∃ f' ∈ fs, DepUses [] f' f := fun f hf => ⟨f, hf, .self (by simp)⟩
    obtain ⟨h1, _, h3⟩ := exploreAll_spec _ hU hN hS fs [] {} hself h0
    constructor
    · intro h
      obtain ⟨g, ⟨f, hf, hu⟩, hm⟩ := h1.sound r n h
      exact ⟨f, hf, g, hu, hm⟩
    · rintro ⟨f, hf, g, hu, hm⟩
      exact searched_uses _ hU hN hS h1 hu (hself f hf) (h3 f hf) r n hm
  exact ⟨key .transform, key .aggregation, key .groupby, key .whered⟩

/-- C47: each of the four lists reported has, sorted and without repetition, exactly the names of the primitives specified that no
feature uses in this role. -/
theorem C47_report_partial (trans agg groupby wheres : List Named) (fs : List DFeat) (hp : ∀ f ∈ fs, Proper f) (hn : NamesTell fs)
    (hs : ∀ f ∈ fs, ∀ g, DepUses [] f g → ∀ i, g.kind = .slice i → ∀ d ∈ g.bases, ∀ j, d.kind ≠ .slice j) :
    ∃ t a g w, unusedReport trans agg groupby wheres fs = [t, a, g, w] ∧
      (∀ l ∈ [t, a, g, w], l.Nodup ∧ l.Pairwise fun x y => x ≤ y) ∧
      (∀ n, n ∈ t ↔ (.text n ∈ trans ∨ .object n ∈ trans) ∧ ¬UsedAs .transform n fs) ∧
      (∀ n, n ∈ a ↔ (.text n ∈ agg ∨ .object n ∈ agg) ∧ ¬UsedAs .aggregation n fs) ∧
      (∀ n, n ∈ g ↔ (.text n ∈ groupby ∨ .object n ∈ groupby) ∧ ¬UsedAs .groupby n fs) ∧
      (∀ n, n ∈ w ↔ (.text n ∈ wheres ∨ .object n ∈ wheres) ∧ ¬UsedAs .whered n fs) := by
  have hmem : ∀ (spec : List Named) (used : List String) (n : String), n ∈ unusedPrimitives spec used ↔
      (.text n ∈ spec ∨ .object n ∈ spec) ∧ n ∉ used := by
    intro spec used n
    unfold unusedPrimitives
    rw [mem_isort, List.mem_filter, mem_dedup, List.mem_map]
    refine and_congr ⟨?_, ?_⟩ (by simp)
    · rintro ⟨x, hx, rfl⟩
      cases x with
      | text s => exact .inl hx
      | object s => exact .inr hx
    · rintro (h | h)
      · exact ⟨_, h, rfl⟩
      · exact ⟨_, h, rfl⟩
  have hsort : ∀ (spec : List Named) (used : List String), (unusedPrimitives spec used).Nodup ∧ (unusedPrimitives spec used).Pairwise fun x y => x ≤ y := by
    intro spec used
    unfold unusedPrimitives
    refine ⟨(isort_perm _ _).nodup_iff.mpr ((nodup_dedup _).filter _), ?_⟩
    refine List.Pairwise.imp (fun h => of_decide_eq_true h) (isort_sorted _ ?_ ?_ _)
    · intro x y
      rcases String.le_total x y with h | h <;> simp [h]
    · intro x y z h1 h2
      exact decide_eq_true (String.le_trans (of_decide_eq_true h1) (of_decide_eq_true h2))
  have hused := C47_used_partial fs hp hn hs
  refine ⟨_, _, _, _, rfl, ?_, ?_, ?_, ?_, ?_⟩
  · intro l hl
    simp only [List.mem_cons, List.not_mem_nil, or_false] at hl
    rcases hl with rfl | rfl | rfl | rfl <;> exact hsort _ _
  · intro n; rw [hmem, (hused n).1]
  · intro n; rw [hmem, (hused n).2.1]
  · intro n; rw [hmem, (hused n).2.2.1]
  · intro n; rw [hmem, (hused n).2.2.2]

namespace UnusedExample
def prim (name : String) (tr : Bool) : Prim := { Prim.plain with name := name, transform := tr }
def rel : Relationship := ⟨"customers", "id", "sessions", "cid"⟩
def idx : DFeat := .mk (.identity "id" "Index") "sessions" "id" [] []
def device : DFeat := .mk (.identity "device" "Categorical") "sessions" "device" [] []
def isPc : DFeat := .mk (.trans (prim "equal" true)) "sessions" "device = pc" [device] []
def counted : DFeat := .mk (.agg [(false, rel)] (prim "count" false)) "customers" "COUNT(sessions WHERE device = pc)" [idx] [isPc]
def top : DFeat := .mk (.agg [(false, rel)] (prim "n_most_common" false)) "customers" "TOP(sessions.device)" [device] []
def top0 : DFeat := .mk (.slice 0) "customers" "TOP(sessions.device)[0]" [top] []

theorem uses_dev {g : DFeat} (h : DepUses [] device g) : g = device := by
  cases h with | self => rfl | dep _ hd _ => cases hd
theorem uses_idx {g : DFeat} (h : DepUses [] idx g) : g = idx := by
  cases h with | self => rfl | dep _ hd _ => cases hd
theorem uses_counted {g : DFeat} (h : DepUses [] counted g) : g = counted ∨ g = idx ∨ g = isPc ∨ g = device := by
  cases h with
  | self => exact .inl rfl
  | dep _ hd h =>
    simp [counted, DFeat.bases, DFeat.wh] at hd
    rcases hd with rfl | rfl
    · exact .inr (.inl (uses_idx h))
    · cases h with
      | self => exact .inr (.inr (.inl rfl))
      | dep _ hd h =>
        simp [isPc, DFeat.bases, DFeat.wh] at hd
        subst hd
        exact .inr (.inr (.inr (uses_dev h)))
theorem uses_top0 {g : DFeat} (h : DepUses [] top0 g) : g = top0 ∨ g = top ∨ g = device := by
  cases h with
  | self => exact .inl rfl
  | dep _ hd h =>
    simp [top0, DFeat.bases, DFeat.wh] at hd
    subst hd
    cases h with
    | self => exact .inr (.inl rfl)
    | dep _ hd h =>
      simp [top, DFeat.bases, DFeat.wh] at hd
      subst hd
      exact .inr (.inr (uses_dev h))

/-- The hypotheses are met by a count with a condition and a slice. -/
example : (∀ f ∈ [counted, top0], Proper f) ∧ NamesTell [counted, top0] ∧
    ∀ f ∈ [counted, top0], ∀ g, DepUses [] f g → ∀ i, g.kind = .slice i → ∀ d ∈ g.bases, ∀ j, d.kind ≠ .slice j := by
  have hdev : Proper device := .identity ..
  have hidx : Proper idx := .identity ..
  have hall : ∀ f ∈ [counted, top0], ∀ g, DepUses [] f g → g = counted ∨ g = idx ∨ g = isPc ∨ g = device ∨ g = top0 ∨ g = top := by
    intro f hf g hu
    simp at hf
    rcases hf with rfl | rfl
    · rcases uses_counted hu with h | h | h | h <;> simp [h]
    · rcases uses_top0 hu with h | h | h <;> simp [h]
  refine ⟨?_, ?_, ?_⟩
  · intro f hf
    simp at hf
    rcases hf with rfl | rfl
    · exact .agg _ _ _ _ (by simp) (by simpa using hidx) (by simp) (by simpa using .trans _ _ _ (by simp) (by simpa using hdev))
    · exact .slice _ _ _ (.agg _ _ _ _ (by simp) (by simpa using hdev) (by simp) (by simp))
  · intro f hf f' hf' g g' hu hu' e
    rcases hall f hf g hu with rfl | rfl | rfl | rfl | rfl | rfl <;> rcases hall f' hf' g' hu' with rfl | rfl | rfl | rfl | rfl | rfl <;>
      first | rfl | exact absurd e (by decide)
  · intro f hf g hu i hi d hd j
    rcases hall f hf g hu with rfl | rfl | rfl | rfl | rfl | rfl <;> simp [counted, idx, isPc, device, top, DFeat.kind] at hi
    simp [top0, DFeat.bases] at hd
    subst hd
    simp [top, DFeat.kind]

example : unusedReport [.text "equal", .text "absolute"] [.object "count", .object "n_most_common"] [] [.object "count", .text "sum"] [counted, top0] =
    [["absolute"], ["count"], [], ["sum"]] := by decide +kernel

/-- A column of the customers with the name of a feature of the sessions. -/
def column : DFeat := .mk (.identity "NUM(logs)" "Numeric") "customers" "NUM(logs)" [] []
def inner : DFeat := .mk (.agg [(false, ⟨"sessions", "id", "logs", "sid"⟩)] (prim "num" false)) "sessions" "NUM(logs)" [.mk (.identity "id" "Index") "logs" "id" [] []] []
def outer : DFeat := .mk (.agg [(false, rel)] (prim "max" false)) "customers" "MAX(sessions.NUM(logs))" [inner] []
end UnusedExample
open UnusedExample

/-- C47 does not hold in general: features are told apart by their names alone, though features of different entities may share
one. A primitive used for the sessions is reported, because the customers have a column of this name. -/
theorem C47_names_violated :
    "num" ∈ ((unusedReport [] [.object "num"] [] [] [column, outer]).flatten) ∧ UsedAs .aggregation "num" [column, outer] :=
  ⟨by decide, outer, by simp, inner, .dep (by simp) (by simp [outer, DFeat.bases]) (.self (by simp)), _, _, rfl, rfl, rfl⟩

/-- C47 does not hold in general: texts are compared as given, although the synthesis takes them in any case: "Count" is reported
as unused beside features that count. -/
theorem C47_case_violated :
    "Count" ∈ (unusedReport [] [.text "Count"] [] [.text "Count"] [counted]).flatten ∧ UsedAs .whered "count" [counted] :=
  ⟨by decide, counted, by simp, counted, .self (by simp), _, _, rfl, by simp [counted, DFeat.wh], rfl⟩

end FT
