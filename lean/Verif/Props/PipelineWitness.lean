import Verif.Props.Pipeline
import Verif.Props.Reloaded
import Verif.Props.DfsWitness
import Verif.Props.Interesting
import Verif.Lemmas.CalcExample
/-! # C82 and C83: concrete cases -/
namespace FT
open Spec
namespace PipelineExample
open CalcExample (row)
open DfsExample (lang eq aggP transP)

def classes : VarClasses where
  cls := fun t => if t = "index" then "Index" else if t = "id" then "Id" else if t = "numeric" then "Numeric"
    else if t = "categorical" then "Categorical" else "TimeIndex"
  key := fun t => t == "index" || t == "id" || t == "datetime_time_index"

def var (id type : String) : Var := { id := id, type := type, name := none, desc := none, interesting := [] }

def shops : Entity :=
  { id := "shops", index := "id", timeIndex := none, secondary := [], created := none, vars := [var "id" "index"]
    df := { cols := ["id"], rows := [row [("id", .num 1)], row [("id", .num 2)]], dtype := fun _ => "int64" }, lti := none }

/-- Two sales up to time 5. -/
def known : List Row :=
  [row [("sale", .num 100), ("shop", .num 1), ("time", .num 1), ("value", .num 5), ("kind", .str "a")],
   row [("sale", .num 101), ("shop", .num 1), ("time", .num 2), ("value", .num 7), ("kind", .str "b")]]

def sales (future : List Row) : Entity :=
  { id := "sales", index := "sale", timeIndex := some "time", secondary := [], created := none
    vars := [var "sale" "index", var "shop" "id", var "time" "datetime_time_index", var "value" "numeric", var "kind" "categorical"]
    df := { cols := ["sale", "shop", "time", "value", "kind"], rows := known ++ future, dtype := fun _ => "int64" }, lti := none }

def link : Relationship := ⟨"shops", "id", "sales", "shop"⟩
def shop (future : List Row) : ESet := { entities := [shops, sales future], rels := [link], timeType := some .datetime, cache := none }

/-- One more sale, at time 9, or another one. -/
def es : ESet := shop [row [("sale", .num 102), ("shop", .num 2), ("time", .num 9), ("value", .num 100), ("kind", .str "a")]]
def es' : ESet := shop [row [("sale", .num 102), ("shop", .num 1), ("time", .num 9), ("value", .num (-3)), ("kind", .str "c")]]

def env : Env :=
  { rels := [], ent := fun _ => none, keyCols := fun _ => [], timeLast := 0, window := none, includeCutoff := true
    minus := fun t d => t - (d.map Prod.snd).foldl (· + ·) 0 }

def sum := aggP "Sum" "sum" "Numeric"
def count := aggP "Count" "count" "Index"
def reading : Reading :=
  { agg := fun p => if p.cls = "Count" then { usesCalcTime := false, fn := fun _ args => [.num (args.headD []).length] } else CalcExample.sum
    trans := fun p => { usesCalcTime := false, usesFull := false, fn := fun _ args => [(args.headD []).map fun v => .bool (p.argStr = " = " ++ (match v with | .str s => s | _ => "?"))] }
    dflt := fun _ => .num 0 }

def args : DfsArgs :=
  { target := "shops", maxDepth := 2, aggs := [sum, count], trans := [], wheres := [count], groupbys := [], allowedPaths := [], ignoreEntities := [], ignoreVariables := [], options := [], seeds := [], whereLimit := 1, sel := ⟨none, [], [], -1⟩ }

def cut : List CutRow := [⟨.num 1, some 9, []⟩, ⟨.num 1, some 5, []⟩, ⟨.num 2, some 5, []⟩]
def call : CfmArgs :=
  { env := env, features := [], cutoff := .table [] cut, instanceIds := none, approximate := none, chunkSize := none,
    exec := .serial, inIndex := false, now := 100, idLe := fun _ _ => true }

theorem schema : SameSchema es es' := ⟨rfl, rfl⟩

theorem keysKnown : KeysNotSecondary es := by
  have none : ∀ x ∈ es.entities, x.secondary = [] := by
    intro x hx
    simp only [es, shop, List.mem_cons, List.not_mem_nil, or_false] at hx
    rcases hx with rfl | rfl <;> rfl
  refine ⟨fun x hx => ?_, fun x hx s hs => ?_, fun r _ x hx _ s hs => ?_, fun r _ x hx _ s hs => ?_⟩
  · rw [none x hx]; exact List.Pairwise.nil
  all_goals rw [none x hx] at hs; cases hs

open Classical in
theorem same : SameBefore env es es' 5 := by
  have vis : ∀ ent : Ent, ent.timeIndex = some "time" →
      (fun r => decide (Visible { env with timeLast := 5 } ent r)) = fun r => (r "time").le 5 := by
    intro ent h
    funext r
    have : visB { env with timeLast := 5 } ent r = (r "time").le 5 := by simp [visB, beforeB, windowB, h, env, Window.start?]
    rw [← this, Bool.eq_iff_iff, visB_iff, decide_eq_true_eq]
  have diag : ∀ l : List Row, l = (l.map fun r => (r, r)).map Prod.fst ∧ l = (l.map fun r => (r, r)).map Prod.snd := by
    intro l; simp [Function.comp_def]
  intro x
  by_cases hc : x = "shops"
  · subst hc
    refine .inr ⟨calcEnt shops, calcEnt shops, rfl, rfl, rfl, rfl, rfl, rfl, _, (diag _).1, (diag _).2, ?_⟩
    intro pr hpr c
    obtain ⟨r, _, rfl⟩ := List.mem_map.mp hpr
    exact ⟨Iff.rfl, fun _ => rfl⟩
  · by_cases hs : x = "sales"
    · subst hs
      refine .inr ⟨_, _, rfl, rfl, rfl, rfl, rfl, rfl, known.map fun r => (r, r), ?_, ?_, ?_⟩
      · rw [vis _ rfl]; rfl
      · rw [vis _ rfl]; rfl
      · intro pr hpr c
        obtain ⟨r, _, rfl⟩ := List.mem_map.mp hpr
        exact ⟨Iff.rfl, fun _ => rfl⟩
    · left
      have h1 : ("shops" == x) = false := by simpa using fun h => hc h.symm
      have h2 : ("sales" == x) = false := by simpa using fun h => hs h.symm
      constructor <;> simp [es, es', shop, ESet.get?, shops, sales, h1, h2]

/-- The matrix of a call. -/
def rowsOf (x : Except DfsErr (Matrix × List DFeat)) : Option (List String × List (List Val)) :=
  match x with
  | .ok (m, _) => some (m.cols, m.rows.map fun r => r.2.2)
  | .error _ => none

end PipelineExample

open PipelineExample in
/-- The two calls return. The rows at time 5 are the same, the row at time 9 is not. -/
example : rowsOf (dfsOn DfsExample.lang DfsExample.eq classes reading es args call) =
      some (["count(sales.sale)", "sum(sales.value)"], [[.num 2, .num 12], [.num 2, .num 12], [.num 0, .num 0]]) ∧
    rowsOf (dfsOn DfsExample.lang DfsExample.eq classes reading es' args call) =
      some (["count(sales.sale)", "sum(sales.value)"], [[.num 3, .num 9], [.num 2, .num 12], [.num 0, .num 0]]) := by
  decide +kernel

open PipelineExample in
/-- `C82_row_partial` applies to them. -/
example (m m' : Matrix) (r r' : List DFeat) (hm : dfsOn DfsExample.lang DfsExample.eq classes reading es args call = .ok (m, r))
    (hm' : dfsOn DfsExample.lang DfsExample.eq classes reading es' args call = .ok (m', r')) :
    r = r' ∧ m.cols = m'.cols ∧ ∀ (i : Nat) x, cut[i]? = some x → x.time = some 5 → m.rows[i]? = m'.rows[i]? :=
  C82_row_partial _ _ classes reading es es' schema keysKnown DfsExample.lang_perm args (fun _ h => by cases h) call [] cut rfl rfl 5 same m m' r r' hm hm'

open PipelineExample in
/-- `C82_table_partial` applies without the first row. -/
example : dfsOn DfsExample.lang DfsExample.eq classes reading es' args { call with cutoff := .table [] cut.tail } =
    dfsOn DfsExample.lang DfsExample.eq classes reading es args { call with cutoff := .table [] cut.tail } :=
  C82_table_partial _ _ classes reading es es' schema keysKnown DfsExample.lang_perm args (fun _ h => by cases h) _ [] cut.tail rfl rfl (by
    intro x hx t ht
    have : t = 5 := by
      simp only [cut, List.tail_cons, List.mem_cons, List.not_mem_nil, or_false] at hx
      rcases hx with rfl | rfl <;> exact (Option.some.inj ht).symm
    subst this
    exact same)

open PipelineExample in
/-- `C82_single_partial` applies to a call for all sales known at time 5: the third is not among them. -/
example : dfsOn DfsExample.lang DfsExample.eq classes reading es' { args with target := "sales" } { call with cutoff := .single 5 } =
    dfsOn DfsExample.lang DfsExample.eq classes reading es { args with target := "sales" } { call with cutoff := .single 5 } :=
  C82_single_partial _ _ classes reading es es' schema keysKnown DfsExample.lang_perm _ (fun _ h => by cases h) _ 5 (.inl rfl) rfl (fun _ => rfl) same

open PipelineExample in
/-- C82 fails for interesting values added before: `add_interesting_values` counts all rows, also those of the future. The two entity
sets show the same at time 5, and have the same schema; after adding interesting values the features differ, so the columns of a matrix for
time 5 tell which kinds of sales there are later. -/
theorem C82_interesting_violated :
    SameSchema es es' ∧ SameBefore env es es' 5 ∧
    rowsOf (dfsOn DfsExample.lang DfsExample.eq classes reading (addInterestingValues InterestingExample.plain 5 es) args { call with cutoff := .single 5 }) =
      some (["count(sales.sale)", "sum(sales.value)", "count(sales.sale WHERE equal_scalar(kind = a))", "count(sales.sale WHERE equal_scalar(kind = b))"],
        [[.num 2, .num 12, .num 1, .num 1], [.num 0, .num 0, .num 0, .num 0]]) ∧
    rowsOf (dfsOn DfsExample.lang DfsExample.eq classes reading (addInterestingValues InterestingExample.plain 5 es') args { call with cutoff := .single 5 }) =
      some (["count(sales.sale)", "sum(sales.value)", "count(sales.sale WHERE equal_scalar(kind = a))", "count(sales.sale WHERE equal_scalar(kind = b))",
        "count(sales.sale WHERE equal_scalar(kind = c))"],
        [[.num 2, .num 12, .num 1, .num 1, .num 0], [.num 0, .num 0, .num 0, .num 0, .num 0]]) := by
  refine ⟨schema, same, ?_, ?_⟩
  · decide +kernel
  · decide +kernel

/-! ## C83 -/

namespace SerExample

/-- The last time indexes of the example are as documented. -/
theorem es_lti : ∀ x ∈ es.entities, ∀ l, x.lti = some l → LtiOk es x l := by
  have hrun : (addLastTimeIndexes es id ["orders", "custs"] 9).map (fun s => s.entities.map fun x => x.lti) = some [orders.lti, custs.lti] := by decide
  cases hr : addLastTimeIndexes es id ["orders", "custs"] 9 with
  | none => rw [hr] at hrun; cases hrun
  | some es' =>
    rw [hr] at hrun
    have hw : Wired es := ⟨by decide, by decide, by decide⟩
    have habove : ∀ x ∈ es.entities, Above es ["orders", "custs"] x.id := by
      intro x hx
      simp only [es, List.mem_cons, List.not_mem_nil, or_false] at hx
      rcases hx with rfl | rfl <;> exact .here (by decide)
    obtain ⟨f, he, h1, _⟩ := C12_updated_partial es es' id (fun l => .refl l) _ (by simp) 9 hw es_orderly (fun x hx hn => absurd (habove x hx) hn) hr
    have hf : [f "orders", f "custs"] = [orders.lti, custs.lti] := by
      have := Option.some.inj hrun
      dsimp only at this
      rw [he] at this
      exact this
    intro x hx l hl
    obtain ⟨l', h2, h3⟩ := h1 x hx (habove x hx)
    have : f x.id = x.lti := by
      simp only [es, List.mem_cons, List.not_mem_nil, or_false] at hx
      rcases hx with rfl | rfl
      · exact (List.cons.inj hf).1
      · exact (List.cons.inj (List.cons.inj hf).2).1
    rw [this, hl] at h2
    rw [Option.some.inj h2]
    exact h3

end SerExample

/-- The hypotheses of `C83_reloaded_partial` are met by the example of C15. -/
example := C83_reloaded_partial EsExample.lib SerExample.json .datetime SerExample.es SerExample.es_ok SerExample.es_dicts
  (fun e => if e = "orders" then SerExample.orders.df else SerExample.custs.df)
  (by
    intro x hx
    simp only [SerExample.es, List.mem_cons, List.not_mem_nil, or_false] at hx
    rcases hx with rfl | rfl <;> rfl)
  id (fun l => .refl l) fun _ => ⟨SerExample.es_end, SerExample.es_orderly, SerExample.es_lti⟩

namespace PipelineExample

/-- The names of the features of a call. -/
def namesOf (x : Except DfsErr (List DFeat)) : Option (List String) :=
  match x with
  | .ok r => some (r.map DFeat.name)
  | .error _ => none

/-- Customers with a renamed column. -/
def renamed : Entity :=
  { SerExample.custs with vars := [var "id" "index", { var "age" "numeric" with name := some "years" }], lti := none }
def renamedSet : ESet := { entities := [renamed], rels := [], timeType := none, cache := none }

end PipelineExample

open PipelineExample in
/-- The call on the example of C15 gives features. -/
example : namesOf (dfsFeaturesOn DfsExample.lang DfsExample.eq classes SerExample.es { args with target := "custs" }) =
    some ["age", "count(orders.oid)", "count(orders.oid WHERE equal_scalar(city = x))", "count(orders.oid WHERE equal_scalar(city = y))"] := by
  decide +kernel

open PipelineExample in
/-- C83 fails for renamed variables: the feature has another name on the reloaded entity set. -/
theorem C83_name_violated :
    namesOf (dfsFeaturesOn DfsExample.lang DfsExample.eq classes renamedSet { args with target := "custs" }) = some ["years"] ∧
    (rebuild EsExample.lib SerExample.json id 9 (describe renamedSet) fun _ => renamed.df).map (fun p =>
      (p.2, namesOf (dfsFeaturesOn DfsExample.lang DfsExample.eq classes p.1 { args with target := "custs" }))) = some (none, some ["age"]) := by
  decide +kernel

end FT
