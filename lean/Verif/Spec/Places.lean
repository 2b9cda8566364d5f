import Verif.Model.Places
/-! # Places where something is saved -/
namespace FT.Spec

def StartsWith (s t : String) : Prop := ∃ r, s = t ++ r
def EndsWith (s t : String) : Prop := ∃ r, s = r ++ t

/-- The JSON text of saved features gives them back. -/
def JsonKeeps (json : JsonLib) (f : FeatureFile) : Prop := json.loads (json.dumps f) = some (.features f)

end FT.Spec
