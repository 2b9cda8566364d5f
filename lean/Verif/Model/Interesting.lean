import Verif.Model.EntitySet
import Verif.Model.Aggregate
/-!
# Interesting values

Models `add_interesting_values` of `entityset/entity.py` and `entityset/entityset.py`.  Shares are exact fractions where the
code has floating point.
-/
namespace FT

/-- What pandas and the type system decide: which types are subclasses of `Discrete`, the categories of a column of dtype
category (its `value_counts` lists all of them, also those that do not occur), and the order of ties before sorting. -/
structure Counting where
  discrete : String → Bool
  categories : String → String → Option (List Val)
  ties : List Val → List Val

/-- `self.df[variable.id].value_counts().index` (`entity.py` 319); line 324 writes the counts back in the same order. -/
def countsIndex (c : Counting) (e v : String) (col : List Val) : List Val :=
  isort (fun a b => decide (col.count b ≤ col.count a)) (c.ties ((c.categories e v).getD (dedup (dropna col))))

/-- `counts[idx] / total_count` (`entity.py` 323, 337). -/
def countShare (col : List Val) (idx : Val) : Rat := (col.count idx : Rat) / ((dropna col).length : Rat)

/-- The loop over the counts (`entity.py` 325-346). -/
def interestingLoop (col : List Val) (few : Bool) : List Val → List Val
  | [] => []
  | idx :: rest =>
    if few then idx :: interestingLoop col few rest
    else if countShare col idx > 1 / 20 ∧ countShare col idx < 19 / 20 then idx :: interestingLoop col few rest
    else []

/-- The body of the loop for a variable (`entity.py` 304-346). The setter (`variable.py` 153-159) drops repeated values. -/
def interestingVar (c : Counting) (rels : List Relationship) (maxValues : Int) (x : Entity) (v : Var) : Var :=
  if !c.discrete v.type then v
  else if rels.any fun r => (r.childE == x.id && r.childV == v.id) || (r.parentE == x.id && r.parentV == v.id) then
    { v with interesting := [] }
  else
    let col := x.df.rows.map fun r => r v.id
    let counts := countsIndex c x.id v.id col
    { v with interesting := dedup (interestingLoop col (decide (counts.length < 25)) (counts.take maxValues.toNat)) }

/-- `Entity.add_interesting_values` (`entity.py` 292-348). -/
def interestingEntity (c : Counting) (maxValues : Int) (es : ESet) (e : String) : ESet :=
  { es.modify e (fun x => { x with vars := x.vars.map (interestingVar c es.rels maxValues x) }) with cache := none }

/-- `EntitySet.add_interesting_values` (`entityset.py` 912-925). -/
def addInterestingValues (c : Counting) (maxValues : Int) (es : ESet) : ESet :=
  { (es.entities.map Entity.id).foldl (fun es e => interestingEntity c maxValues es e) es with cache := none }

end FT
