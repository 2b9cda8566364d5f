import Verif.Props.Graph
/-! # C72: lineage graphs, examples and counterexamples -/
namespace FT
open Spec

namespace GraphExample

def feature (e n : String) (k : Kind) (bases wh : List Feat) : Feat := .mk ⟨e, n, [n], .null, k⟩ bases wh
def column (e n : String) : Feat := feature e n (.identity n) [] []
def fn : TransPrim := ⟨false, false, fun _ _ => []⟩
def agg : AggPrim := ⟨false, fun _ _ => []⟩
def link : Relationship := ⟨"sessions", "id", "log", "session_id"⟩

/-- Names of primitives: here the part of the feature's name before `(`. -/
def names (f : Feat) : String := String.ofList (f.name.toList.takeWhile (· ≠ '('))

def value : Feat := column "log" "value"
def kindCol : Feat := column "log" "kind"
def dbl : Feat := feature "log" "DOUBLE(value)" (.trans fn) [value] []
def buys : Feat := feature "log" "IS(kind, buy)" (.trans fn) [kindCol] []
/-- `SUM(log.DOUBLE(value) WHERE IS(kind, buy))` for sessions. -/
def target : Feat := feature "sessions" "SUM(log)" (.agg [link] agg none true) [dbl] [buys]

/-- The number of steps, tables, arrows, dotted lines and diamonds with their steps. -/
structure Drawing where
  steps : Nat
  rows : List (String × String)
  arrows : List (GNode × GNode)
  dotted : List (GNode × GNode)
  diamonds : List (String × Int)
deriving DecidableEq

def drawing (t : Feat) : Drawing :=
  let g := featureGraph names t
  ⟨g.1, g.2.vars ++ g.2.feats, g.2.solid, g.2.dotted, g.2.prims.map fun d => (d.label, graphStep g d)⟩

theorem from_target {g : Feat} (h : CalcFrom target g) : g = dbl ∨ g = buys := by
  rcases h with h | h
  · exact .inl (List.mem_singleton.mp (show g ∈ [dbl] from h))
  · exact .inr (List.mem_singleton.mp (show g ∈ [buys] from h))

theorem from_dbl {g : Feat} (h : CalcFrom dbl g) : g = value := by
  rcases h with h | h
  · exact List.mem_singleton.mp (show g ∈ [value] from h)
  · cases (show g ∈ [] from h)

theorem from_buys {g : Feat} (h : CalcFrom buys g) : g = kindCol := by
  rcases h with h | h
  · exact List.mem_singleton.mp (show g ∈ [kindCol] from h)
  · cases (show g ∈ [] from h)

theorem from_column {e n : String} {g : Feat} (h : CalcFrom (column e n) g) : False := by
  rcases h with h | h <;> cases (show g ∈ [] from h)

theorem at_target {n : Nat} {f : Feat} (h : UpstreamAt target n f) :
    (f = target ∧ n = 0) ∨ ((f = dbl ∨ f = buys) ∧ n = 1) ∨ (f = value ∨ f = kindCol) := by
  induction h with
  | self => exact .inl ⟨rfl, rfl⟩
  | step _ hc ih =>
    rcases ih with ⟨rfl, rfl⟩ | ⟨rfl | rfl, rfl⟩ | rfl | rfl
    · exact .inr (.inl ⟨from_target hc, rfl⟩)
    · exact .inr (.inr (.inl (from_dbl hc)))
    · exact .inr (.inr (.inr (from_buys hc)))
    · exact (from_column hc).elim
    · exact (from_column hc).elim

theorem behind_target {f : Feat} (h : Upstream target f) : f = target ∨ f = dbl ∨ f = buys ∨ f = value ∨ f = kindCol := by
  obtain ⟨n, hn⟩ := h
  rcases at_target hn with ⟨rfl, _⟩ | ⟨rfl | rfl, _⟩ | rfl | rfl <;> simp

theorem fit : GraphFit target where
  leaf := by
    intro f hf hi
    rcases behind_target hf with rfl | rfl | rfl | rfl | rfl <;>
      simp_all [target, dbl, buys, value, kindCol, column, feature, Feat.isIdentity, Feat.kind, Feat.info, Feat.bases, Feat.wh]
  group := by
    intro f hf p hp
    rcases behind_target hf with rfl | rfl | rfl | rfl | rfl <;>
      simp_all [shownSource, target, dbl, buys, value, kindCol, column, feature, Feat.kind, Feat.info, Feat.bases, Feat.wh]
  names := by
    intro f g hf hg he hn
    rcases behind_target hf with rfl | rfl | rfl | rfl | rfl <;> rcases behind_target hg with rfl | rfl | rfl | rfl | rfl <;>
      first
        | rfl
        | exact absurd hn (by decide)
        | exact absurd he (by decide)
  links := by
    intro f g st hf hg hst he hn
    have hst' : st = (false, link) := by
      rcases behind_target hf with rfl | rfl | rfl | rfl | rfl <;>
        simp_all [Feat.path, Kind.path, target, dbl, buys, value, kindCol, column, feature, Feat.kind, Feat.info, Feat.bases]
    subst hst'
    rcases behind_target hg with rfl | rfl | rfl | rfl | rfl <;>
      first
        | rfl
        | exact absurd hn (by decide)

end GraphExample

open GraphExample in
/-- The hypotheses of the theorems are met by a sum over the rows of a child entity with a condition, and this is its graph. -/
example : GraphFit target ∧ SourcesTold target ∧ OneDistance target ∧ GroupsByColumns target ∧
    (∀ f p, Upstream target f → DiamondName GraphExample.names (shownSource f) p → HasInput f) ∧
    drawing target = ⟨2, [("log", "session_id"), ("log", "value"), ("log", "kind"), ("sessions", "SUM(log)"), ("log", "DOUBLE(value)"),
        ("log", "IS(kind, buy)")],
      [(.prim 0 "SUM(log)" "SUM", .row "sessions" "SUM(log)"), (.group "SUM(log)" "log" "session_id", .prim 0 "SUM(log)" "SUM"),
       (.prim 1 "DOUBLE(value)" "DOUBLE", .row "log" "DOUBLE(value)"), (.row "log" "value", .prim 1 "DOUBLE(value)" "DOUBLE"),
       (.row "log" "DOUBLE(value)", .group "SUM(log)" "log" "session_id"), (.prim 1 "IS(kind, buy)" "IS", .row "log" "IS(kind, buy)"),
       (.row "log" "kind", .prim 1 "IS(kind, buy)" "IS"), (.row "log" "IS(kind, buy)", .group "SUM(log)" "log" "session_id")],
      [(.row "log" "session_id", .group "SUM(log)" "log" "session_id")], [("SUM", 2), ("DOUBLE", 1), ("IS", 1)]⟩ := by
  refine ⟨fit, ?_, ?_, ?_, ?_, by decide +kernel⟩
  · intro f g hf hg _ _ hn
    rcases behind_target hf with rfl | rfl | rfl | rfl | rfl <;> rcases behind_target hg with rfl | rfl | rfl | rfl | rfl <;>
      first
        | rfl
        | exact absurd hn (by decide)
  · have src : ∀ f, (f = target ∨ f = dbl ∨ f = buys ∨ f = value ∨ f = kindCol) → shownSource f = f := by
      intro f h
      rcases h with rfl | rfl | rfl | rfl | rfl <;> rfl
    intro f g m n hf hg hni hs
    rw [src f (behind_target ⟨_, hf⟩), src g (behind_target ⟨_, hg⟩)] at hs
    subst hs
    rcases at_target hf with ⟨h1, rfl⟩ | ⟨h1, rfl⟩ | rfl | rfl
    · rcases at_target hg with ⟨_, rfl⟩ | ⟨h2, _⟩ | rfl | rfl
      · rfl
      · subst h1
        rcases h2 with h2 | h2 <;> exact absurd (congrArg Feat.name h2) (by decide)
      · cases hni
      · cases hni
    · rcases at_target hg with ⟨h2, _⟩ | ⟨_, rfl⟩ | rfl | rfl
      · subst h2
        rcases h1 with h1 | h1 <;> exact absurd (congrArg Feat.name h1) (by decide)
      · rfl
      · cases hni
      · cases hni
    · cases hni
    · cases hni
  · intro f g p hf hp
    rcases behind_target hf with rfl | rfl | rfl | rfl | rfl <;> cases hp
  · intro f p hf hp
    rcases behind_target hf with rfl | rfl | rfl | rfl | rfl
    · exact .inl (by simp [shownSource, target, feature, Feat.kind, Feat.info, Feat.bases])
    · exact .inl (by simp [shownSource, dbl, feature, Feat.kind, Feat.info, Feat.bases])
    · exact .inl (by simp [shownSource, buys, feature, Feat.kind, Feat.info, Feat.bases])
    · exact absurd hp (by simp [DiamondName, shownSource, value, column, feature, Feat.kind, Feat.info])
    · exact absurd hp (by simp [DiamondName, shownSource, kindCol, column, feature, Feat.kind, Feat.info])

open GraphExample in
/-- Grouping by a calculated feature: its depth is dropped, so that its diamond says step 0. -/
theorem C72_step_zero_violated :
    let day := feature "log" "DAY(time)" (.trans fn) [column "log" "time"] []
    let t := feature "log" "CUM(value) by DAY(time)" (.groupby fn) [value, day] []
    (drawing t).diamonds = [("CUM", 1), ("DAY", 0)] := by decide +kernel

open GraphExample in
/-- A feature used twice is numbered by its first use: `ABS` comes after `NEG`, which uses it. -/
theorem C72_order_violated :
    let a := feature "log" "ABS(value)" (.trans fn) [value] []
    let n := feature "log" "NEG(ABS(value))" (.trans fn) [a] []
    let h := feature "log" "HALF(NEG(ABS(value)))" (.trans fn) [n] []
    let t := feature "log" "ADD(x)" (.trans fn) [a, h] []
    (drawing t).diamonds = [("ADD", 3), ("ABS", 2), ("HALF", 2), ("NEG", 1)] := by decide +kernel

open GraphExample in
/-- Features of two parent entities with one name share a diamond: the drawing leads from the date of the product to the day on which
the customer joined. -/
theorem C72_shared_diamond_violated :
    let day := fun e => feature e "DAY(date)" (.trans fn) [column e "date"] []
    let direct := fun e l => feature "orders" (e ++ ".DAY(date)") (.direct ⟨e, "id", "orders", l⟩) [day e] []
    let t := feature "orders" "ADD(x)" (.trans fn) [direct "customers" "customer_id", direct "products" "product_id"] []
    Leads (featureGraph GraphExample.names t).2 (.row "products" "date") (.row "customers" "DAY(date)") := by
  intro day direct t
  refine .arrow (b := .prim 2 "DAY(date)" "DAY") ?_ (.arrow (b := .row "customers" "DAY(date)") ?_ .refl)
  · decide +kernel
  · decide +kernel

open GraphExample in
/-- A feature that has been given the name of a column is not drawn after the column: what it is calculated from is missing. -/
theorem C72_names_violated :
    let renamed := feature "log" "value" (.trans fn) [column "log" "price"] []
    let t := feature "log" "ADD(value, value)" (.trans fn) [value, renamed] []
    Upstream t (column "log" "price") ∧ ¬ HasRow (featureGraph GraphExample.names t).2 "log" "price" := by
  intro renamed t
  refine ⟨⟨2, .step (.step .self (.inl (.tail _ (.head _)))) (.inl (.head _))⟩, ?_⟩
  unfold HasRow
  decide +kernel

end FT
