import Verif.Model.Cfm
import Verif.Spec.Calculator
/-! # What a feature matrix should contain -/
namespace FT.Spec

/-- The data shown at cutoff `t`, whatever cutoff is in `env`. -/
def worldAt (env : Env) (t : Int) : World := worldOf { env with timeLast := t }

/-- The features are regular at cutoff `t`. -/
def RegularAt (env : Env) (features : List Feat) (e : String) (t : Int) : Prop := Regular { env with timeLast := t } features e

/-- The values of the features for instance `id` at cutoff `t`: their definition over the data shown at `t`, or the defaults
when the instance is not visible. -/
def valuesAt (env : Env) (features : List Feat) (e : String) (t : Int) (id : Val) : List Val :=
  if id ∈ (worldAt env t).ids e then features.flatMap fun f => meaning (worldAt env t) f id
  else features.flatMap fun f => f.names.map fun _ => f.dflt

/-- A way of executing the chunks: in this process, or by at least one worker, where all chunks complete, in any order. -/
def Fair : Exec → Prop
  | .serial => True
  | .parallel workers order => 0 < workers ∧ ∀ n, (order n).Perm (List.range n)

/-- No chunk size, or a positive one. -/
def SizeOk (size : Option Rat) : Prop := ∀ s, size = some s → 0 < s

end FT.Spec
