import Verif.Model.Synth
import Verif.Model.Match
/-!
# Primitive options

Models `primitives/options_utils.py`: which features a primitive may use.
-/
namespace FT

/-- A dict from entity ids to sets of variable names. -/
abbrev VarDict := List (String × List String)

/-- One option dict after `_init_option_dict` (`options_utils.py` 139-159): `ignore_entities` and `ignore_variables` are
always there, the other keys may be missing. Sets are lists. -/
structure POption where
  ignoreEntities : List String := []
  ignoreVars : VarDict := []
  includeEntities : Option (List String) := none
  includeVars : Option VarDict := none
  ignoreGbEntities : Option (List String) := none
  ignoreGbVars : Option VarDict := none
  includeGbEntities : Option (List String) := none
  includeGbVars : Option VarDict := none

/-- The options chosen by `groupby` in `variable_filter` (`options_utils.py` 165-168): include/ignore variables, include/ignore
entities. -/
structure Choice where
  incVars : Option VarDict
  ignVars : Option VarDict
  incEnts : Option (List String)
  ignEnts : Option (List String)

/-- `options_utils.py` 165-168. -/
def POption.choice (o : POption) (groupby : Bool) : Choice :=
  if groupby then ⟨o.includeGbVars, o.ignoreGbVars, o.includeGbEntities, o.ignoreGbEntities⟩
  else ⟨o.includeVars, some o.ignoreVars, o.includeEntities, some o.ignoreEntities⟩

/-- `key in options and entity in options[key]`, with the set. -/
def varsFor (d : Option VarDict) (e : String) : Option (List String) := d.bind fun l => l.lookup e

/-- The tests on the entity of a dependency (`options_utils.py` 181-186). -/
def entityAllowed (c : Choice) (e : String) : Bool :=
  if (match c.incEnts with | some l => !l.contains e | none => false) then false
  else if (match c.ignEnts with | some l => l.contains e | none => false) then false
  else true

/-- One round of the loop of `variable_filter` (`options_utils.py` 171-186). -/
def depAllowed (c : Choice) (f : DFeat) : Bool :=
  if f.isIdentity then
    match varsFor c.incVars f.entity with
    | some l => l.contains f.name
    | none =>
      match varsFor c.ignVars f.entity with
      | some l => if l.contains f.name then false else entityAllowed c f.entity
      | none => entityAllowed c f.entity
  else entityAllowed c f.entity

/-- `variable_filter` (`options_utils.py` 162-187). -/
def variableFilter (sub : String → String → Bool) (f : DFeat) (o : POption) (groupby : Bool) : Bool :=
  if groupby && !sub f.vtype "Discrete" then false
  else (f.deepDeps ++ [f]).all (depAllowed (o.choice groupby))

/-- The group-by part of `should_ignore_entity` (`options_utils.py` 193-198). -/
def ignoreForGroupby (o : POption) (e : String) : Bool :=
  if (varsFor o.includeGbVars e).isSome then false
  else if (match o.includeGbEntities with | some l => !l.contains e | none => false) then true
  else (match o.ignoreGbEntities with | some l => l.contains e | none => false)

/-- `should_ignore_entity` (`options_utils.py` 192-206). -/
def shouldIgnoreEntity (o : POption) (e : String) (groupby : Bool) : Bool :=
  if groupby && ignoreForGroupby o e then true
  else if (varsFor o.includeVars e).isSome then false
  else if (match o.includeEntities with | some l => !l.contains e | none => false) then true
  else o.ignoreEntities.contains e

/-- `ignore_entity_for_primitive` (`options_utils.py` 190-207). -/
def ignoreEntityFor (options : List POption) (e : String) (groupby : Bool) : Bool :=
  options.any fun o => shouldIgnoreEntity o e groupby

/-- `is_valid_match` (`options_utils.py` 218-229): one option for every input, or a single one for all of them. Without any
option the code raises `IndexError`. -/
def validMatch (sub : String → String → Bool) (options : List POption) (groupby : Bool) (m : List DFeat) : Bool :=
  match options with
  | [] => false
  | [o] => m.all fun f => variableFilter sub f o groupby
  | options => (m.zip options).all fun (f, o) => variableFilter sub f o groupby

/-- Every way of taking one element out of a list, with what remains. -/
def picks {α : Type} : List α → List (α × List α)
  | [] => []
  | a :: as => (a, as) :: (picks as).map fun (b, rest) => (b, a :: rest)

/-- `itertools.permutations(match)`, in its order; the number is the length of the list. -/
def permsN {α : Type} : Nat → List α → List (List α)
  | 0, _ => [[]]
  | n + 1, l => (picks l).flatMap fun (a, rest) => (permsN n rest).map fun p => a :: p

/-- One round of the loop of `filter_matches_by_options` (`options_utils.py` 232-239): the match, or its first reordering
that the options allow. -/
def keepMatch (sub : String → String → Bool) (options : List POption) (groupby commutative : Bool) (m : List DFeat) :
    Option (List DFeat) :=
  if validMatch sub options groupby m then some m
  else if commutative then (permsN m.length m).find? (validMatch sub options groupby)
  else none

/-- `filter_matches_by_options` (`options_utils.py` 216-240). -/
def filterMatches (sub : String → String → Bool) (options : List POption) (groupby commutative : Bool) (ms : List (List DFeat)) :
    List (List DFeat) :=
  isort (fun a b => decide (tupleKey a ≤ tupleKey b)) (dedupOn tupleKey (ms.filterMap (keepMatch sub options groupby commutative)))

/-- The keys of `primitive_options`: an instance of a primitive or the name of one. -/
inductive PKey where
  | inst (p : Prim)
  | named (n : String)
deriving DecidableEq

/-- `primitive_options.get(primitive, primitive_options.get(primitive.name))` on what the user gave. -/
def userOptions (user : List (PKey × List POption)) (p : Prim) : Option (List POption) :=
  match user.lookup (.inst p) with
  | some o => some o
  | none => user.lookup (.named p.name)

/-- `included_entities` (`options_utils.py` 68-71). -/
def includedEntities (options : List POption) : List String :=
  options.flatMap fun o => o.includeEntities.getD [] ++ (o.includeVars.getD []).map Prod.fst

/-- Setting a key of a dict. -/
def dictPut (d : VarDict) (k : String) (v : List String) : VarDict :=
  if d.any fun p => p.1 == k then d.map fun p => if p.1 = k then (k, v) else p else d ++ [(k, v)]

/-- The loop over the globally ignored variables (`options_utils.py` 82-92) for one option. -/
def addGlobalVars (included : List String) (gV : VarDict) (ignoreVars : VarDict) : VarDict :=
  gV.foldl (fun d p => match d.lookup p.1 with
    | some vs => dictPut d p.1 (vs ++ p.2)
    | none => if included.contains p.1 then d else dictPut d p.1 p.2) ignoreVars

/-- The options of a primitive with options of its own, reconciled with the global ones (`options_utils.py` 65-92). -/
def reconcile (gE : List String) (gV : VarDict) (options : List POption) : List POption :=
  options.map fun o => { o with
    ignoreEntities := o.ignoreEntities ++ gE.filter fun e => !(includedEntities options).contains e
    ignoreVars := addGlobalVars (includedEntities options) gV o.ignoreVars }

/-- The options `generate_all_primitive_options` leaves for a primitive (`options_utils.py` 59-96). An option object shared by
several primitives is reconciled once for each; doing it again changes nothing. -/
def optionsFor (user : List (PKey × List POption)) (gE : List String) (gV : VarDict) (p : Prim) : List POption :=
  match userOptions user p with
  | some options => reconcile gE gV options
  | none => [{ ignoreEntities := gE, ignoreVars := gV }]

/-- The entities still ignored globally (`options_utils.py` 68-72). -/
def globalEntities (user : List (PKey × List POption)) (prims : List Prim) (gE : List String) : List String :=
  gE.filter fun e => !prims.any fun p => (includedEntities ((userOptions user p).getD [])).contains e

/-- Is the variable included for one of the primitives (`options_utils.py` 73-78)? -/
def includedVar (user : List (PKey × List POption)) (prims : List Prim) (e v : String) : Bool :=
  prims.any fun p => ((userOptions user p).getD []).any fun o => (o.includeVars.getD []).any fun q => q.1 == e && q.2.contains v

/-- The variables of an entity still ignored globally (`options_utils.py` 73-78). -/
def globalVars (user : List (PKey × List POption)) (prims : List Prim) (gV : VarDict) (e : String) : List String :=
  ((gV.lookup e).getD []).filter fun v => !includedVar user prims e v

end FT
