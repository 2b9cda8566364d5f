import Verif.Model.Progress
import Verif.Spec.Calculator
/-!
# What a progress callback may rely on
-/
namespace FT.Spec

/-- The percentages add up and the bar does not go back. -/
structure Steady (reports : List Report) : Prop where
  /-- The percentage is the sum of the updates so far. -/
  adds : ∀ (i : Nat) r, reports[i]? = some r → r.percent = ((reports.take (i + 1)).map Report.update).sum
  /-- No update is negative. -/
  forward : ∀ r ∈ reports, 0 ≤ r.update

/-- The reports of a call that succeeds: 100 percent once, and last. -/
def Finished (reports : List Report) : Prop :=
  ∃ before u, reports = before ++ [⟨u, 100⟩] ∧ ∀ r ∈ before, r.percent ≤ 95

/-- The reports of a call that fails: never more than 95 percent. -/
def Unfinished (reports : List Report) : Prop := ∀ r ∈ reports, r.percent ≤ 95

/-- What a progress callback may rely on, for a call that was successful (`done`) or not. -/
structure Honest (reports : List Report) (done : Bool) : Prop extends Steady reports where
  failed : done = false → Unfinished reports
  finished : done = true → Finished reports

/-- Was the call successful? -/
def done {ε α : Type} : Except ε α → Bool
  | .ok _ => true
  | .error _ => false

end FT.Spec

namespace FT.Spec

/-- The columns made for the features are new: features computed for one entity have different columns, and an aggregation has a
column that is not a key column, not a variable that is read for the same entity, and not a link column (`parent.variable`). -/
structure NewColumns (env : Env) (targets : List Feat) : Prop where
  names : NamesIdentify targets
  disjoint : ∀ p f g full full', Planned targets noHidden p f full → Planned targets noHidden p g full' → f ≠ g →
    ∀ n ∈ f.names, n ∉ g.names
  aggs : ∀ p f full, Planned targets noHidden p f full → (∃ path prim prev u, f.kind = .agg path prim prev u) →
    ∃ n ∈ f.names, (∀ e, n ∉ env.keyCols e) ∧ (∀ g full', Planned targets noHidden p g full' → g.kind ≠ .identity n) ∧
      ∀ (r : Relationship) pn v, r.parentName? env.rels = some pn → n ≠ pn ++ "." ++ v

/-- The share of the rows of a cutoff table that have a cutoff time. -/
def shareWithTime (cut : List CutRow) : Rat := ((cut.filter fun r => r.time.isSome).length : Rat) / cut.length

/-- The updates but the last add up to 95 percent of a share of the rows, and the last update is what is left. -/
def CountsRows (share : Rat) (reports : List Report) : Prop :=
  ∃ before last, reports = before ++ [last] ∧ (before.map Report.update).sum = 95 * share ∧ last.update = 100 - 95 * share

end FT.Spec
