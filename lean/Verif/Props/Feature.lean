import Verif.Lemmas.Feature
/-! # C21: dependencies and depth -/
namespace FT
open Spec

/-- C21: `get_dependencies(deep=True, ignored)` lists exactly the features reachable through base features and
where clauses without entering an ignored feature. -/
theorem C21_deep_dependencies (ignored : List String) (f g : Feat) :
    g ∈ deepDeps ignored f ↔ Uses ignored f g := mem_deepDeps ignored f g

/-- C21: an identity feature has depth 0, and so has a feature in `stop_at`. -/
theorem C21_depth_zero (stop : List String) (f : Feat) (h : f.isIdentity = true ∨ f.uniqueName ∈ stop) :
    getDepth stop f = 0 := by
  rw [getDepth_unfold]
  rcases h with h | h <;> simp [h]

/-- C21: any other feature is one deeper than the deepest of its direct dependencies that are not stopped at. -/
theorem C21_depth_step (stop : List String) (f : Feat) (h1 : f.isIdentity = false) (h2 : f.uniqueName ∉ stop)
    (hleaf : ∀ g, Uses stop f g → IdentityLeaf g) :
    ∃ m, getDepth stop f = m + 1 ∧
      IsMax (getDepth stop) ((f.bases ++ f.wh).filter fun d => d.uniqueName ∉ stop) m := by
  refine ⟨(deepDeps stop f).foldl (fun m d => max (getDepth stop d) m) 0, ?_, ?_⟩
  · rw [getDepth_unfold]; simp [h1, h2]
  · obtain ⟨hle, hatt⟩ := isMax_foldl (getDepth stop) (deepDeps stop f)
    -- a deep dependency is no deeper than the direct dependency it comes from
    have key : ∀ d, Uses stop f d → ∀ g, Uses stop d g → getDepth stop g ≤ getDepth stop d := by
      intro d hd g hg
      have hid : d.isIdentity = false := by
        cases h : d.isIdentity with
        | false => rfl
        | true =>
          have := hleaf d hd h
          cases hg with
          | direct hg _ => simp [this] at hg
          | deep hg _ _ => simp [this] at hg
      have hst := Uses.not_ignored hd
      rw [getDepth_unfold stop d]
      simp only [hid, Bool.false_eq_true, if_false, List.contains_eq_mem, hst, decide_false]
      have := (isMax_foldl (getDepth stop) (deepDeps stop d)).1 g ((mem_deepDeps ..).mpr hg)
      omega
    refine ⟨fun d hd => ?_, ?_⟩
    · simp only [List.mem_filter, List.mem_append, decide_eq_true_eq] at hd
      exact hle d ((mem_deepDeps ..).mpr (.direct hd.1 hd.2))
    · rcases hatt with ⟨hnil, h0⟩ | ⟨g, hg, h0⟩
      · refine .inl ⟨?_, h0⟩
        rw [List.filter_eq_nil_iff]
        intro d hd hd'
        simp only [List.mem_append, decide_eq_true_eq] at hd hd'
        have : d ∈ deepDeps stop f := (mem_deepDeps ..).mpr (.direct hd hd')
        rw [hnil] at this; cases this
      · right
        rcases (mem_deepDeps ..).mp hg with ⟨hd, hd'⟩ | ⟨hd, hd', hdg⟩
        · exact ⟨g, by simp [List.mem_filter, hd, hd'], h0⟩
        · rename_i d
          refine ⟨d, by simp [List.mem_filter, hd, hd'], ?_⟩
          have h1 := hle d ((mem_deepDeps ..).mpr (.direct hd hd'))
          have h2 := key d (.direct hd hd') g hdg
          omega

/-- A concrete feature satisfying the hypotheses: the sum of a product of two columns, with a condition. -/
example :
    let idf (v : String) : Feat := .mk ⟨"log", v, [v], .null, .identity v⟩ [] []
    let prod : Feat := .mk ⟨"log", "x * y", ["x * y"], .null, .trans ⟨false, false, fun _ c => c⟩⟩ [idf "x", idf "y"] []
    let agg : Feat := .mk ⟨"sessions", "SUM(log.x * y WHERE b)", ["SUM(log.x * y WHERE b)"], .num 0,
      .agg [⟨"sessions", "id", "log", "session_id"⟩] ⟨false, fun _ _ => [.null]⟩ none true⟩ [prod] [idf "b"]
    getDepth [] agg = 2 ∧ getDepth ["log: x * y"] agg = 1 ∧
    (deepDeps [] agg).map Feat.uniqueName = ["log: x * y", "log: b", "log: x", "log: y"] ∧
    agg.isIdentity = false ∧ (deepDeps [] agg).all (fun g => !g.isIdentity || g.deps.length == 0) = true := by decide

end FT
