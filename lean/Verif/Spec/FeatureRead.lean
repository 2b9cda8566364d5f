import Verif.Spec.FeatureFile
/-! # What a file of features says -/
namespace FT.Spec
open FT

/-- The names of the base features in stored arguments, in their order. -/
def inputsOf : SArgs → List String
  | .identity _ _ _ => []
  | .direct _ b _ => [b]
  | .agg _ bs _ _ _ _ => bs
  | .trans _ bs _ => bs
  | .groupby _ bs _ g => bs ++ [g]
  | .slice _ b _ => [b]
  | .other _ => []

/-- The name of the condition in stored arguments. -/
def conditionOf : SArgs → List String
  | .agg _ _ _ _ (some w) _ => [w]
  | _ => []

/-- The feature is the one the file describes under the name: its class, name and entity are those of the definition, and its
base features and its condition are, one by one, those the file describes under the names in the definition, all of which
the definition lists as dependencies. -/
inductive FileSays (defs : List (String × SDef)) : String → SFeat → Prop
  | mk {n : String} {d : SDef} {f : SFeat} (stored : defs.lookup n = some d) (described : Describes d f)
      (listed : ∀ m, m ∈ inputsOf d.args ∨ m ∈ conditionOf d.args → m ∈ d.dependencies)
      (inputs : f.bases.length = (inputsOf d.args).length)
      (reads : ∀ (i : Nat) m b, (inputsOf d.args)[i]? = some m → f.bases[i]? = some b → FileSays defs m b)
      (conditions : f.wh.length = (conditionOf d.args).length)
      (condition : ∀ (i : Nat) m b, (conditionOf d.args)[i]? = some m → f.wh[i]? = some b → FileSays defs m b) : FileSays defs n f

/-- In the file, the definition of the first name needs the second one, directly or through others. -/
inductive FileNeeds (defs : List (String × SDef)) : String → String → Prop
  | direct {n m : String} {d : SDef} (h : defs.lookup n = some d) (hm : m ∈ d.dependencies) : FileNeeds defs n m
  | through {n m k : String} {d : SDef} (h : defs.lookup n = some d) (hm : m ∈ d.dependencies) (hk : FileNeeds defs m k) : FileNeeds defs n k

end FT.Spec
