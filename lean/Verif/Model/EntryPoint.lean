import Verif.Model.Basic
/-!
# Calls watched by entry points

Models the decorator `entry_point` (`utils/entry_point.py` 8-53), which `dfs` carries (`synthesis/dfs.py` 16). Objects are references
`R`, exceptions are `E`. What the program reads and writes is `W`; what else there is, such as the files and counters of the
handlers, is `H`. Running times are left out. Every call of a method of a handler and every call of the function is written to a
log, which the code does not have.
-/
namespace FT

/-- A parameter of a function, and whether it collects what is left (`*args`, `**kwargs`). -/
structure EpParam where
  name : String
  star : Bool
deriving DecidableEq

/-- The decorated function: the names `inspect.signature` lists and the call. -/
structure EpFun (R E W : Type) where
  params : List EpParam
  run : List R → List (String × R) → W → Except E R × W

/-- What can be seen to happen. -/
inductive EpEvent (R E : Type) where
  | onCall (handler : Nat) (kwargs : List (String × R))
  | run (args : List R) (kwargs : List (String × R))
  | onReturn (handler : Nat) (value : R)
  | onError (handler : Nat) (error : E)
deriving DecidableEq

/-- A registered entry point. `create` is `load()` and the call of what was loaded; `onCall` gets the dictionary itself and may
change it. Every method may raise and may change the program's objects. -/
structure EpHandler (R E H W : Type) where
  id : Nat
  create : H × W → Except E Unit × H × W
  onCall : List (String × R) → H × W → Except E (List (String × R)) × H × W
  onReturn : R → H × W → Except E Unit × H × W
  onError : E → H × W → Except E Unit × H × W

/-- The state of the world and the log. -/
structure EpState (R E H W : Type) where
  outside : H
  world : W
  log : List (EpEvent R E)

variable {R E H W : Type}

/-- `on_call_kwargs[parameter] = arg`: a dictionary keeps the place of a key it has. -/
def kwargPut (d : List (String × R)) (k : String) (v : R) : List (String × R) :=
  if (d.lookup k).isSome then d.map fun x => if x.1 = k then (k, v) else x else d ++ [(k, v)]

/-- Lines 14-17: a copy of the keyword arguments with the positional ones under the names of the parameters. -/
def onCallKwargs (params : List EpParam) (args : List R) (kwargs : List (String × R)) : List (String × R) :=
  (args.zip (params.map EpParam.name)).foldl (fun d x => kwargPut d x.2 x.1) kwargs

/-- Lines 20-23: every entry point is loaded and called. -/
def epCreate : List (EpHandler R E H W) → EpState R E H W → Except E Unit × EpState R E H W
  | [], s => (.ok (), s)
  | h :: hs, s => match h.create (s.outside, s.world) with
    | (.error e, o, w) => (.error e, { s with outside := o, world := w })
    | (.ok _, o, w) => epCreate hs { s with outside := o, world := w }

/-- Lines 26-27: `on_call` of each, with one dictionary for all. -/
def epCalls : List (EpHandler R E H W) → List (String × R) → EpState R E H W → Except E Unit × EpState R E H W
  | [], _, s => (.ok (), s)
  | h :: hs, d, s => match h.onCall d (s.outside, s.world) with
    | (.error e, o, w) => (.error e, ⟨o, w, s.log ++ [.onCall h.id d]⟩)
    | (.ok d', o, w) => epCalls hs d' ⟨o, w, s.log ++ [.onCall h.id d]⟩

/-- Lines 37-39: `on_error` of each. -/
def epErrors : List (EpHandler R E H W) → E → EpState R E H W → Except E Unit × EpState R E H W
  | [], _, s => (.ok (), s)
  | h :: hs, x, s => match h.onError x (s.outside, s.world) with
    | (.error e, o, w) => (.error e, ⟨o, w, s.log ++ [.onError h.id x]⟩)
    | (.ok _, o, w) => epErrors hs x ⟨o, w, s.log ++ [.onError h.id x]⟩

/-- Lines 43-45: `on_return` of each. -/
def epReturns : List (EpHandler R E H W) → R → EpState R E H W → Except E Unit × EpState R E H W
  | [], _, s => (.ok (), s)
  | h :: hs, v, s => match h.onReturn v (s.outside, s.world) with
    | (.error e, o, w) => (.error e, ⟨o, w, s.log ++ [.onReturn h.id v]⟩)
    | (.ok _, o, w) => epReturns hs v ⟨o, w, s.log ++ [.onReturn h.id v]⟩

/-- Lines 11-47, `function_wrapper`. `isException` tells the subclasses of `Exception` from the other things that can be raised
(`KeyboardInterrupt`, `SystemExit`), which line 34 does not catch. -/
def epWrapper (isException : E → Bool) (f : EpFun R E W) (handlers : List (EpHandler R E H W)) (args : List R) (kwargs : List (String × R))
    (s : EpState R E H W) : Except E R × EpState R E H W :=
  let d := onCallKwargs f.params args kwargs
  match epCreate handlers s with
  | (.error e, s1) => (.error e, s1)
  | (.ok _, s1) => match epCalls handlers d s1 with
    | (.error e, s2) => (.error e, s2)
    | (.ok _, s2) => match f.run args kwargs s2.world with
      | (.error e, w) =>
        let s3 : EpState R E H W := ⟨s2.outside, w, s2.log ++ [.run args kwargs]⟩
        if isException e then match epErrors handlers e s3 with
          | (.error e', s4) => (.error e', s4)
          | (.ok _, s4) => (.error e, s4)
        else (.error e, s3)
      | (.ok v, w) => match epReturns handlers v ⟨s2.outside, w, s2.log ++ [.run args kwargs]⟩ with
        | (.error e, s4) => (.error e, s4)
        | (.ok _, s4) => (.ok v, s4)

end FT
