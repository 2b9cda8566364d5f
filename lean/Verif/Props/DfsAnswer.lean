import Verif.Lemmas.DfsAnswer
import Verif.Spec.DfsAnswer
import Verif.Props.DfsWitness
/-!
# Deep Feature Synthesis answers: theorems
-/
namespace FT
open FT.Spec

section
variable (L : Lang) (equalScalar : Val → Prim) (ents : List DEnt) (rels : List Relationship) (a : DfsArgs)

/-- C88 (in part): a request that makes sense is answered with features; nothing is raised on the way.  Missing: commutative
primitives of inputs of different types and primitives with `base_of_exclude`, where the code raises. -/
theorem C88_answers_partial (hL : ∀ l, (L.setOrder l).Perm l) (h : WellAsked ents rels a) (hm : Manageable a) :
    ∃ r, dfsFeatures L equalScalar ents rels a = .ok r := by
  obtain ⟨S, hS⟩ : ∃ S, configure L equalScalar ents rels a = .ok S := by
    unfold configure
    rw [if_neg, if_neg, if_neg, if_neg]
    · exact ⟨_, rfl⟩
    · intro hx
      obtain ⟨p, hp, hx⟩ := List.any_eq_true.mp hx
      rw [h.trans p (List.mem_append.mp hp)] at hx
      cases hx
    · intro hx
      obtain ⟨p, hp, hx⟩ := List.any_eq_true.mp hx
      rw [h.aggs p hp] at hx
      cases hx
    · simpa using h.kept
    · obtain ⟨d, hd, he⟩ := h.target
      simp only [Bool.not_eq_true', Bool.not_eq_false]
      exact List.any_eq_true.mpr ⟨d, hd, by simpa using he⟩
  have hc := configure_ok hS
  have hask : ∀ p ∈ S.aggs ++ S.trans ++ S.groupbys, MakesWith a p := by
    intro p hp
    rcases List.mem_append.mp hp with hp | hp
    · rcases List.mem_append.mp hp with hp | hp
      · exact .inl ((hc.aggs p).mp hp)
      · exact .inr (.inl ((hc.trans p).mp hp))
    · exact .inr (.inr ((hc.groupbys p).mp hp))
  have hfit : Fit S := ⟨by rw [hc.rels, hc.ents]; exact h.known, by rw [hc.rels]; exact h.acyclic,
    fun p hp => (h.takes p (hask p hp)).2, fun p hp => hm.alike p (hask p hp), fun p hp => hm.prims p (hask p hp),
    fun f hf => hm.seeds f ((hc.seeds f).mp hf)⟩
  have hex : exhausted (effectiveDepth S a.maxDepth) = false := by
    unfold effectiveDepth
    dsimp only
    rcases h.depth with h | h
    · rw [if_pos h]
      dsimp only
      split <;> rfl
    · have hne : ¬a.maxDepth = -1 := by omega
      rw [if_neg hne]
      dsimp only
      split
      · rfl
      · exact decide_eq_false (by omega)
  obtain ⟨st, hst, hkey⟩ := runDfs_answers (target := a.target) (M := effectiveDepth S a.maxDepth) (by rw [hc.lang]; exact hL) hfit
    (S.ents.length + 1) ⟨[], []⟩ a.target [] (effectiveDepth S a.maxDepth) ⟨by simp, by simp, by simp⟩ (by simp) (.inl rfl)
    ⟨0, .here, by cases effectiveDepth S a.maxDepth <;> simp⟩ hc.present (Nat.lt_succ_of_le (List.length_filter_le _ _))
  obtain ⟨fs, hfs⟩ := lookup_of_key (hkey hex)
  unfold dfsFeatures
  rw [hS]
  dsimp only
  unfold buildFeatures
  rw [show allFeatures S a.target (effectiveDepth S a.maxDepth) = .ok st from hst]
  dsimp only
  rw [hfs]
  exact ⟨_, rfl⟩

/-- C88: requests that make no sense are refused: an unknown target and a depth below -1 with a `KeyError`, a target that is ignored
with an `AssertionError`, primitives of the wrong kind with a `ValueError`. -/
theorem C88_refused :
    ((∀ d ∈ ents, d.id ≠ a.target) → dfsFeatures L equalScalar ents rels a = .error (.py .keyError)) ∧
    ((∃ d ∈ ents, d.id = a.target) → a.target ∈ a.ignoreEntities →
      dfsFeatures L equalScalar ents rels a = .error (.py .assertionError)) ∧
    ((∃ d ∈ ents, d.id = a.target) → a.target ∉ a.ignoreEntities →
      ((∃ p ∈ a.aggs, p.transform = true) ∨ ∃ p, (p ∈ a.trans ∨ p ∈ a.groupbys) ∧ p.transform = false) →
      dfsFeatures L equalScalar ents rels a = .error (.py .valueError)) ∧
    ((∃ d ∈ ents, d.id = a.target) → a.target ∉ a.ignoreEntities → (∀ p ∈ a.aggs, p.transform = false) →
      (∀ p, p ∈ a.trans ∨ p ∈ a.groupbys → p.transform = true) → a.maxDepth < -1 →
      dfsFeatures L equalScalar ents rels a = .error (.py .keyError)) := by
  have hthere : (∃ d ∈ ents, d.id = a.target) → ¬(!ents.any fun d => d.id == a.target) = true := by
    rintro ⟨d, hd, he⟩
    simp only [Bool.not_eq_true', Bool.not_eq_false]
    exact List.any_eq_true.mpr ⟨d, hd, by simpa using he⟩
  refine ⟨fun h => ?_, fun h1 h2 => ?_, fun h1 h2 h3 => ?_, fun h1 h2 h3 h4 h5 => ?_⟩
  · have : (!ents.any fun d => d.id == a.target) = true := by simpa using h
    simp only [dfsFeatures, configure, if_pos this]
  · have : a.ignoreEntities.contains a.target = true := by simpa using h2
    simp only [dfsFeatures, configure, if_neg (hthere h1), if_pos this]
  · have hk : ¬a.ignoreEntities.contains a.target = true := by simpa using h2
    simp only [dfsFeatures, configure, if_neg (hthere h1), if_neg hk]
    by_cases ha : (a.aggs.any fun p => p.transform) = true
    · simp only [if_pos ha]
    · have : ((a.trans ++ a.groupbys).any fun p => !p.transform) = true := by
        rcases h3 with ⟨p, hp, ht⟩ | ⟨p, hp, ht⟩
        · exact absurd (List.any_eq_true.mpr ⟨p, hp, ht⟩) ha
        · exact List.any_eq_true.mpr ⟨p, List.mem_append.mpr hp, by simp [ht]⟩
      simp only [if_neg ha, if_pos this]
  · have hk : ¬a.ignoreEntities.contains a.target = true := by simpa using h2
    have ha : ¬(a.aggs.any fun p => p.transform) = true := by
      intro hx
      obtain ⟨p, hp, hx⟩ := List.any_eq_true.mp hx
      rw [h3 p hp] at hx; cases hx
    have ht : ¬((a.trans ++ a.groupbys).any fun p => !p.transform) = true := by
      intro hx
      obtain ⟨p, hp, hx⟩ := List.any_eq_true.mp hx
      rw [h4 p (List.mem_append.mp hp)] at hx; cases hx
    simp only [dfsFeatures, configure, if_neg (hthere h1), if_neg hk, if_neg ha, if_neg ht, buildFeatures]
    have hne : ¬a.maxDepth = -1 := by omega
    have hd : ∀ S : Synth, effectiveDepth S a.maxDepth = some a.maxDepth := by
      intro S
      unfold effectiveDepth
      dsimp only
      rw [if_neg hne, if_neg]
      simp only [Bool.and_eq_true, decide_eq_true_eq, not_and]
      intro _; omega
    simp only [hd, allFeatures, runDfs, visit, exhausted]
    have : decide (a.maxDepth < 0) = true := decide_eq_true (by omega)
    simp only [this, if_true, List.lookup_nil]

end

open DfsExample

/-- The request of `DfsExample` makes sense and can be answered. -/
example : WellAsked [custs, sess] rels args ∧ Manageable args := by
  have hp : ∀ p, MakesWith args p → p = sum ∨ p = count ∨ p = add := by
    intro p h
    rcases h with h | h | h
    · simp only [args, List.mem_cons, List.not_mem_nil, or_false] at h
      rcases h with rfl | rfl
      · exact .inl rfl
      · exact .inr (.inl rfl)
    · simp only [args, List.mem_cons, List.not_mem_nil, or_false] at h
      exact .inr (.inr h)
    · cases h
  refine ⟨⟨⟨custs, by simp, rfl⟩, by simp [args], ?_, rels_acyclic, ?_, ?_, .inr (by decide), ?_, by simp [args]⟩, ⟨?_, ?_, by simp [args]⟩⟩
  · intro r hr
    simp only [rels, List.mem_cons, List.not_mem_nil, or_false] at hr
    subst hr
    exact ⟨⟨sess, by simp, rfl⟩, ⟨custs, by simp, rfl⟩⟩
  · intro p h
    rcases hp p (.inl h) with rfl | rfl | rfl
    · rfl
    · rfl
    · simp only [args, List.mem_cons, List.not_mem_nil, or_false] at h
      rcases h with h | h <;> exact absurd h (by decide)
  · intro p h
    rcases h with h | h
    · simp only [args, List.mem_cons, List.not_mem_nil, or_false] at h
      subst h; rfl
    · cases h
  · intro p h
    rcases hp p h with rfl | rfl | rfl <;> decide
  · intro p h hc
    rcases hp p h with rfl | rfl | rfl
    · cases hc
    · cases hc
    · intro x hx y hy
      simp only [add, transP, List.mem_cons, List.not_mem_nil, or_false, or_self] at hx hy
      rw [hx, hy]
  · intro p h
    rcases hp p h with rfl | rfl | rfl <;> rfl

/-- A commutative primitive of a number and a category. -/
def DfsExample.mixed : Prim := transP "Mixed" "mixed" ["Numeric", "Categorical"]

/-- C88 is violated by a commutative primitive whose inputs are of different types: the inputs are put into the order of their
names, and the synthesis raises `AssertionError` when this is not the order of the types. -/
theorem C88_commutative_violated :
    WellAsked [custs, sess] rels { args with target := "sessions", aggs := [], trans := [mixed], wheres := [] } ∧
    dfsFeatures lang eq [custs, sess] rels { args with target := "sessions", aggs := [], trans := [mixed], wheres := [] } =
      .error (.py .assertionError) := by
  have hp : ∀ p, MakesWith { args with target := "sessions", aggs := [], trans := [mixed], wheres := [] } p → p = mixed := by
    intro p h
    rcases h with h | h | h
    · cases h
    · simpa using h
    · cases h
  constructor
  · refine ⟨⟨sess, by simp, rfl⟩, by simp [args], ?_, rels_acyclic, ?_, ?_, .inr (by decide), ?_, by simp [args]⟩
    · intro r hr
      simp only [rels, List.mem_cons, List.not_mem_nil, or_false] at hr
      subst hr
      exact ⟨⟨sess, by simp, rfl⟩, ⟨custs, by simp, rfl⟩⟩
    · intro p h; cases h
    · intro p h; rw [hp p (.inr h)]; rfl
    · intro p h; rw [hp p h]; decide
  · have h : raised (dfsFeatures lang eq [custs, sess] rels { args with target := "sessions", aggs := [], trans := [mixed], wheres := [] }) =
        some (.py .assertionError) := by decide +kernel
    revert h
    cases dfsFeatures lang eq [custs, sess] rels { args with target := "sessions", aggs := [], trans := [mixed], wheres := [] } with
    | ok r => intro h; cases h
    | error e => intro h; simp only [raised, Option.some.injEq] at h; rw [h]

end FT
