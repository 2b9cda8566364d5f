import Verif.Model.Schema
import Verif.Model.Timedelta
/-!
# The names of features

Models `get_name`, `generate_name`, `get_feature_names`, `generate_names` and `rename` of the classes of
`feature_base/feature_base.py`, with the default names of `primitives/base` and those of `Count` and `EqualScalar`.  The
other primitives with names of their own (operators, `IsIn`, `Negate`, `Not`, `Haversine`) are in `Operators.lean` and
`Haversine.lean`.  `upper` is `str.upper`.  Features are modelled as far as their names depend on them.
-/
namespace FT

/-- A primitive: `name`, `get_arguments()` with `str` of the values (`primitive_base.py` 82-103), `number_output_features`,
whether it is a `TransformPrimitive`, and whether it is `Count`, which has a name of its own. -/
structure NPrim where
  name : String
  args : List (String × String)
  outputs : Nat
  transform : Bool
  count : Bool
deriving DecidableEq

/-- A feature (`feature_base.py` 342, 384, 480, 640, 684, 768). The path of an aggregation leads from the entity down to
that of the inputs. `equal` is a transform feature of `EqualScalar`; `renamed` is what `rename` returns (74-79). -/
inductive NFeat where
  | identity (var : String)
  | direct (rel : Relationship) (base : NFeat)
  | agg (prim : NPrim) (path : List Relationship) (bases wh : List NFeat) (prev : Option Timedelta)
  | trans (prim : NPrim) (bases : List NFeat)
  | equal (value : String) (base : NFeat)
  | groupby (prim : NPrim) (bases : List NFeat) (group : NFeat)
  | slice (base : NFeat) (n : Nat)
  | renamed (name : String) (base : NFeat)

/-- The names of a feature: `generate_name()`, `generate_names()` (called with several outputs only), `get_name()`,
`get_feature_names()`. -/
structure NNames where
  gen : String
  genList : List String
  name : String
  names : List String
deriving DecidableEq

/-- `number_output_features` (`feature_base.py` 163-165, 449-451, 800-802); 1 for `PrimitiveBase` and `EqualScalar`. -/
def NFeat.outputs : NFeat → Nat
  | .identity _ => 1
  | .direct _ b => b.outputs
  | .agg p _ _ _ _ => p.outputs
  | .trans p _ => p.outputs
  | .equal _ _ => 1
  | .groupby p _ _ => p.outputs
  | .slice _ _ => 1
  | .renamed _ b => b.outputs

/-- `get_args_string` (`primitive_base.py` 70-80). -/
def argsString (args : List (String × String)) : String :=
  if args.isEmpty then ""
  else ", " ++ String.intercalate ", " (args.map fun a => a.1 ++ "=" ++ a.2)

/-- `TransformPrimitive.generate_name` (`transform_primitive_base.py` 16-21). -/
def transName (upper : String → String) (p : NPrim) (bases : List String) : String :=
  upper p.name ++ "(" ++ String.intercalate ", " bases ++ argsString p.args ++ ")"

/-- `AggregationPrimitive.generate_name` (`aggregation_primitive_base.py` 16-26) and that of `Count`
(`aggregation_primitives.py` 46-49). -/
def aggName (upper : String → String) (p : NPrim) (path : String) (bases : List String) (wh prev : String) : String :=
  if p.count then "COUNT(" ++ path ++ wh ++ prev ++ ")"
  else upper p.name ++ "(" ++ path ++ "." ++ String.intercalate ", " bases ++ wh ++ prev ++ argsString p.args ++ ")"

/-- `[base_name + "[%s]" % i for i in range(n)]` (`transform_primitive_base.py` 23-26, `aggregation_primitive_base.py`
28-37). -/
def indexed (name : String) (n : Nat) : List String := (List.range n).map fun i => name ++ "[" ++ Nat.repr i ++ "]"

/-- `get_name` and `get_feature_names` of a feature without a name given to it (`feature_base.py` 81-94). -/
def plainNames (outputs : Nat) (gen : String) (genList : List String) : NNames :=
  ⟨gen, genList, gen, if outputs = 1 then [gen] else genList⟩

/-- The name of a relationship seen from its child (`relationship.py` 79-85); the assertion is an `AssertionError`. -/
def forwardName (rels : List Relationship) (r : Relationship) : Except PyErr String :=
  (r.parentName? rels).elim (.error .assertionError) .ok

/-- The name of a backward path (`relationship.py` 119-124), one relationship after the other. -/
def backwardNames (rels : List Relationship) : List Relationship → Except PyErr (List String)
  | [] => .ok []
  | r :: rs => match r.childName? rels with
    | none => .error .assertionError
    | some n => (backwardNames rels rs).map fun ns => n :: ns

/-- `relationship_path_name` of an aggregation (`feature_base.py` 633-637), with `_path_is_unique` as
`_handle_relationship_path` sets it (529-566): the entity of the inputs if there is one path only.  `StopIteration` is
`PyErr.other`. -/
def aggPathName (rels : List Relationship) (path : List Relationship) : Except PyErr String :=
  match path.head?, path.getLast? with
  | some first, some last =>
    match hasUniqueForwardPath rels last.childE first.parentE with
    | .error _ => .error .other
    | .ok true => .ok last.childE
    | .ok false => (backwardNames rels path).map fun ns => String.intercalate "." ns
  | _, _ => .error .indexError

/-- `_use_prev_str` (`feature_base.py` 602-607). -/
def usePrevStr : Option Timedelta → Except PyErr String
  | none => .ok ""
  | some td => td.getName.map fun s => ", Last " ++ s

/-- `_where_str` (`feature_base.py` 595-600), given the names of the condition. -/
def whereStr : List String → String
  | [] => ""
  | w :: _ => " WHERE " ++ w

/-- `rename` (`feature_base.py` 74-79) and its effect in `get_name` and `get_feature_names` (81-94): an empty name counts as
none. The copy has the generated names of the original. -/
def renameNames (outputs : Nat) (n : String) (x : NNames) : NNames :=
  let name := if n = "" then x.gen else n
  ⟨x.gen, x.genList, name,
    if outputs = 1 then [name] else if name ≠ x.gen then indexed name x.genList.length else x.genList⟩

mutual
/-- All names of a feature: `generate_name` (`feature_base.py` 366-367, 461-462, 609-614, 670-671, 714-719, 797-798) and
`generate_names` (464-466, 616-621, 673-674, 721-725). -/
def NFeat.namesOf (upper : String → String) (rels : List Relationship) : NFeat → Except PyErr NNames
  | .identity v => .ok (plainNames 1 v [v])
  | .direct r b =>
    (forwardName rels r).bind fun rn => (b.namesOf upper rels).map fun x =>
      plainNames b.outputs (rn ++ "." ++ x.name) (x.names.map fun n => rn ++ "." ++ n)
  | .agg p path bases wh prev =>
    (aggPathName rels path).bind fun pn => (NFeat.baseNames upper rels bases).bind fun ns =>
      (NFeat.baseNames upper rels wh).bind fun ws => (usePrevStr prev).map fun up =>
        plainNames p.outputs (aggName upper p pn ns (whereStr ws) up) (indexed (aggName upper p pn ns (whereStr ws) up) p.outputs)
  | .trans p bases =>
    (NFeat.baseNames upper rels bases).map fun ns =>
      plainNames p.outputs (transName upper p ns) (indexed (transName upper p ns) p.outputs)
  | .equal v b =>
    (b.namesOf upper rels).map fun x => plainNames 1 (x.name ++ " = " ++ v) (indexed (x.name ++ " = " ++ v) 1)
  | .groupby p bases g =>
    (NFeat.baseNames upper rels bases).bind fun ns => (g.namesOf upper rels).map fun x =>
      plainNames p.outputs (transName upper p ns ++ " by " ++ x.name)
        ((indexed (transName upper p ns) p.outputs).map fun n => n ++ " by " ++ x.name)
  | .slice b n =>
    (b.namesOf upper rels).bind fun x => (x.names[n]?).elim (.error .indexError) fun s => .ok (plainNames 1 s [s])
  | .renamed n b => (b.namesOf upper rels).map fun x => renameNames b.outputs n x

/-- `[bf.get_name() for bf in base_features]` -/
def NFeat.baseNames (upper : String → String) (rels : List Relationship) : List NFeat → Except PyErr (List String)
  | [] => .ok []
  | f :: fs => (f.namesOf upper rels).bind fun x => (NFeat.baseNames upper rels fs).map fun ns => x.name :: ns
end

end FT
