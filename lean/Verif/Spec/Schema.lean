import Verif.Model.Basic
/-! Specification of relationship chains, independent of the search code. -/
namespace FT.Spec
open FT

/-- `Chain rels a b p`: `p` is a list of relationships of `rels` leading from child `a` up to ancestor `b`. -/
def Chain (rels : List Relationship) : String → String → List Relationship → Prop
  | a, b, [] => a = b
  | a, b, r :: p => r ∈ rels ∧ r.childE = a ∧ Chain rels r.parentE b p

/-- Entities visited by a chain from `a`. -/
def visited (a : String) (p : List Relationship) : List String := a :: p.map (·.parentE)

/-- A chain that visits no entity twice. -/
def SimpleChain (rels : List Relationship) (a b : String) (p : List Relationship) : Prop :=
  Chain rels a b p ∧ (visited a p).Nodup

/-- `a` is on, or leads to, a cycle: there are chains of every length from `a`. -/
def UnboundedFrom (rels : List Relationship) (a : String) : Prop :=
  ∀ n : Nat, ∃ b p, Chain rels a b p ∧ p.length = n

/-- No chain leads from an entity back to itself. -/
def Acyclic (rels : List Relationship) : Prop :=
  ∀ a p, Chain rels a a p → p = []

end FT.Spec
