import Verif.Model.Trie
/-!
# Specification of the trie: a dictionary whose keys are paths
-/
namespace FT.Spec

variable {κ ν : Type}

/-- The path an operation names. -/
def opPath : Trie.Op κ ν → List κ
  | .get p => p
  | .set p _ => p

/-- The value most recently assigned at `p`, or the default. -/
def lastAssigned [DecidableEq κ] (dflt : ν) (p : List κ) : List (Trie.Op κ ν) → ν
  | [] => dflt
  | .get _ :: ops => lastAssigned dflt p ops
  | .set q v :: ops => if q = p then lastAssigned v p ops else lastAssigned dflt p ops

/-- `p` has been brought into existence by the history: it is the root or a
prefix of a path some operation named. -/
def Touched (p : List κ) (ops : List (Trie.Op κ ν)) : Prop :=
  p = [] ∨ ∃ op ∈ ops, p <+: opPath op

end FT.Spec
