import Verif.Lemmas.Gather
/-! # C35: which features are approximated -/
namespace FT
open Spec

/-- C35: a name is marked for approximation at a path iff it is the name of an aggregation reached from a requested
feature by following direct features along exactly this path, and neither the requested feature nor any needed feature
depending on it is computed on the full entity. -/
theorem C35_exactly_direct_aggregations (targets : List Feat) (hinj : NamesIdentify targets)
    (hw : ∀ g, NeededBy targets g → ∀ r, g.kind = .direct r → g.bases ≠ []) (p : List Edge) (n : String) :
    n ∈ hiddenBy (gatherApproximate targets) p ↔
      ∃ f ∈ targets, ¬ FullEntityInvolved targets f ∧
        ∃ g, DirectChain f p g ∧ (∃ q pr pv u, g.kind = .agg q pr pv u) ∧ n = g.uniqueName :=
  hidden_gather targets hinj hw p n

/-- C35: nothing is approximated on the target entity itself: every marked path starts with a forward relationship. -/
theorem C35_never_on_target (targets : List Feat) (hinj : NamesIdentify targets)
    (hw : ∀ g, NeededBy targets g → ∀ r, g.kind = .direct r → g.bases ≠ []) (p : List Edge) (n : String)
    (h : n ∈ hiddenBy (gatherApproximate targets) p) : p ≠ [] ∧ ∀ e ∈ p, e.1 = true := by
  obtain ⟨f, _, _, g, hc, _⟩ := (hidden_gather targets hinj hw p n).mp h
  have key : ∀ {f p g}, DirectChain f p g → p ≠ [] ∧ ∀ e ∈ p, e.1 = true := by
    intro f p g hc
    induction hc with
    | last _ _ _ => simp
    | more _ _ _ ih => simpa using ih.2
  exact key hc

/-- A concrete case: a direct feature of an aggregation is marked; a direct feature which a full-entity transform uses is not. -/
example :
    let r : Relationship := ⟨"customers", "id", "sessions", "customer_id"⟩
    let rl : Relationship := ⟨"customers", "id", "sessions", "customer_id"⟩
    let x : Feat := .mk ⟨"sessions", "x", ["x"], .null, .identity "x"⟩ [] []
    let agg (n : String) : Feat := .mk ⟨"customers", n, [n], .null, .agg [rl] ⟨false, fun _ _ => []⟩ none true⟩ [x] []
    let dir (n : String) (b : Feat) : Feat := .mk ⟨"sessions", n, [n], .null, .direct r⟩ [b] []
    let cum (n : String) (b : Feat) : Feat := .mk ⟨"sessions", n, [n], .null, .trans ⟨true, false, fun _ c => c⟩⟩ [b] []
    let d1 := dir "customers.SUM" (agg "SUM")
    let d2 := dir "customers.MEAN" (agg "MEAN")
    hiddenBy (gatherApproximate [d1, d2, cum "CUM_SUM(customers.MEAN)" d2]) [(true, r)] = ["customers: SUM"] := by decide

end FT
