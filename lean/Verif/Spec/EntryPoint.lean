import Verif.Model.EntryPoint
/-! # Words of the property about watched calls -/
namespace FT.Spec
variable {R E H W : Type}

/-- A handler that never raises and leaves the program's objects alone. -/
structure Quiet (h : EpHandler R E H W) : Prop where
  create : ∀ o w, ∃ o', h.create (o, w) = (.ok (), o', w)
  call : ∀ d o w, ∃ d' o', h.onCall d (o, w) = (.ok d', o', w)
  returned : ∀ v o w, ∃ o', h.onReturn v (o, w) = (.ok (), o', w)
  failed : ∀ e o w, ∃ o', h.onError e (o, w) = (.ok (), o', w)

/-- A handler that does not change the dictionary of arguments. -/
def OnlyReads (h : EpHandler R E H W) : Prop := ∀ d d' o w o' w', h.onCall d (o, w) = (.ok d', o', w') → d' = d

/-- The dictionary has every argument of the call under the name of its parameter, and nothing else. -/
structure NamesArguments (params : List EpParam) (args : List R) (kwargs : List (String × R)) (d : List (String × R)) : Prop where
  positional : ∀ (i : Nat) p a, params[i]? = some p → args[i]? = some a → d.lookup p.name = some a
  keyword : ∀ k, (∀ (i : Nat) p, i < args.length → params[i]? = some p → p.name ≠ k) → d.lookup k = kwargs.lookup k

/-- What the handlers are told after the function has run. -/
def toldAfter (isException : E → Bool) (ids : List Nat) : Except E R → List (EpEvent R E)
  | .ok v => ids.map fun i => .onReturn i v
  | .error e => if isException e then ids.map fun i => .onError i e else []

/-- Calls of the function in a log. -/
def epRuns (l : List (EpEvent R E)) : List (List R × List (String × R)) :=
  l.filterMap fun | .run a k => some (a, k) | _ => none

end FT.Spec
