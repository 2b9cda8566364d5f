import Verif.Lemmas.Plan
/-! # C22: the computation plan -/
namespace FT
open Spec

/-- C22: a name is stored at the node of a path, in one of its two sets, iff it is the name of a feature needed there
for the targets and not hidden behind an approximated feature. -/
theorem C22_exactly_the_needed (targets : List Feat) (approx : ATrie) (p : List Edge) (n : String) :
    let v := planAt (buildTrie targets approx) p
    (n ∈ v.full ∨ n ∈ v.notFull) ↔ ∃ g full, Planned targets (hiddenBy approx) p g full ∧ n = g.uniqueName := by
  obtain ⟨h1, h2, _⟩ := buildTrie_spec targets approx p
  intro v
  constructor
  · rintro (h | h)
    · obtain ⟨g, hg, hn⟩ := (h1 n).mp h; exact ⟨g, true, hg, hn⟩
    · exact ((h2 n).mp h).1
  · intro h
    by_cases hf : n ∈ v.full
    · exact .inl hf
    · exact .inr ((h2 n).mpr ⟨h, hf⟩)

/-- C22: the full-entity set of a node holds exactly the features that need the full entity themselves or are needed
there by one that does; the two sets of a node are disjoint. -/
theorem C22_full_features (targets : List Feat) (approx : ATrie) (p : List Edge) (n : String) :
    let v := planAt (buildTrie targets approx) p
    (n ∈ v.full ↔ ∃ g, Planned targets (hiddenBy approx) p g true ∧ n = g.uniqueName) ∧
    ¬ (n ∈ v.full ∧ n ∈ v.notFull) := by
  obtain ⟨h1, h2, _⟩ := buildTrie_spec targets approx p
  exact ⟨h1 n, fun h => ((h2 n).mp h.2).2 h.1⟩

/-- C22: a node is marked as needing the full entity iff a full-entity feature is planned there or its relationship path
leads to or through the node. -/
theorem C22_marked_full (targets : List Feat) (approx : ATrie) (q : List Edge) :
    (planAt (buildTrie targets approx) q).need = true ↔
      ∃ p g, Planned targets (hiddenBy approx) p g true ∧ p <+: q ∧ q <+: p ++ g.path :=
  (buildTrie_spec targets approx q).2.2

/-- C22: the plan does not depend on the order of the targets. -/
theorem C22_order_independent (ts ts' : List Feat) (h : ∀ f, f ∈ ts ↔ f ∈ ts') (approx : ATrie) (p : List Edge) :
    let v := planAt (buildTrie ts approx) p
    let v' := planAt (buildTrie ts' approx) p
    v.need = v'.need ∧ (∀ n, n ∈ v.full ↔ n ∈ v'.full) ∧ (∀ n, n ∈ v.notFull ↔ n ∈ v'.notFull) := by
  have key : ∀ {a b : List Feat}, (∀ f, f ∈ a ↔ f ∈ b) → ∀ {q g full}, Planned a (hiddenBy approx) q g full →
      Planned b (hiddenBy approx) q g full := by
    intro a b hab q g full hp
    induction hp with
    | target hf hh => exact .target ((hab _).mp hf) hh
    | dep _ hd he hh ih => exact .dep ih hd he hh
  have key' : ∀ q g full, Planned ts (hiddenBy approx) q g full ↔ Planned ts' (hiddenBy approx) q g full :=
    fun q g full => ⟨key h, key fun f => (h f).symm⟩
  obtain ⟨h1, h2, h3⟩ := buildTrie_spec ts approx p
  obtain ⟨h1', h2', h3'⟩ := buildTrie_spec ts' approx p
  intro v v'
  have hfull : ∀ n, n ∈ v.full ↔ n ∈ v'.full := fun n => by rw [h1, h1']; simp only [key']
  refine ⟨?_, hfull, fun n => ?_⟩
  · rw [Bool.eq_iff_iff, h3, h3']; simp only [key']
  · rw [h2, h2']; simp only [key']; rw [hfull]

/-- A concrete case: the sum over the log of a cumulative sum (which needs the full entity) and of a plain column. -/
example :
    let r : Relationship := ⟨"sessions", "id", "log", "session_id"⟩
    let x : Feat := .mk ⟨"log", "x", ["x"], .null, .identity "x"⟩ [] []
    let cum : Feat := .mk ⟨"log", "CUM_SUM(x)", ["CUM_SUM(x)"], .null, .trans ⟨true, false, fun _ c => c⟩⟩ [x] []
    let agg (n : String) (b : Feat) : Feat := .mk ⟨"sessions", n, [n], .null, .agg [r] ⟨false, fun _ _ => []⟩ none true⟩ [b] []
    let t := buildTrie [agg "SUM(log.x)" x, agg "SUM(log.CUM_SUM(x))" cum] (Trie.new [])
    planAt t [] = ⟨false, [], ["sessions: SUM(log.x)", "sessions: SUM(log.CUM_SUM(x))"]⟩ ∧
    planAt t [(false, r)] = ⟨true, ["log: CUM_SUM(x)", "log: x"], []⟩ := by decide

end FT
