import Verif.Props.SavedDfs
import Verif.Props.PipelineWitness
/-! # C84: concrete cases -/
namespace FT
open Spec
namespace SavedExample
open PipelineExample
open DfsExample (lang eq transP)

def cumSum := transP "CumSum" "cum_sum" ["Numeric"]
def cumCount := transP "CumCount" "cum_count" ["Id"]

/-- Kinds of sales have an interesting value. -/
def salesVars : List Var :=
  [var "sale" "index", var "shop" "id", var "time" "datetime_time_index", var "value" "numeric", { var "kind" "categorical" with interesting := [.str "a"] }]
def marked (future : List Row) : ESet :=
  { entities := [shops, { sales future with vars := salesVars }], rels := [link], timeType := some .datetime, cache := none }
def train : ESet := marked []
/-- Later there is one more sale. -/
def later : ESet := marked [CalcExample.row [("sale", .num 102), ("shop", .num 2), ("time", .num 9), ("value", .num 100), ("kind", .str "a")]]

def value : DFeat := .mk (.identity "value" "Numeric") "sales" "value" [] []
/-- A seed feature with a name of its own. -/
def total : DFeat := .mk (.agg [(false, link)] sum) "shops" "TOTAL" [value] []
def savedArgs : DfsArgs := { args with groupbys := [cumSum], seeds := [total] }

def sumC : PClass := ⟨("Sum", "standard"), 1, []⟩
def countC : PClass := ⟨("Count", "standard"), 2, []⟩
def equalC : PClass := ⟨("EqualScalar", "standard"), 3, [("value", none)]⟩
def cumSumC : PClass := ⟨("CumSum", "standard"), 4, []⟩
def cumCountC : PClass := ⟨("CumCount", "standard"), 5, []⟩
def root : ClassTree :=
  .node ⟨("PrimitiveBase", "base"), 0, []⟩ [.node sumC [], .node countC [], .node equalC [], .node cumSumC [], .node cumCountC []]
def inst (p : Prim) : PInst :=
  if p.cls = "Sum" then ⟨sumC, []⟩ else if p.cls = "Count" then ⟨countC, []⟩ else if p.cls = "CumSum" then ⟨cumSumC, []⟩
  else if p.cls = "CumCount" then ⟨cumCountC, []⟩ else ⟨equalC, [.str "a"]⟩
def prim (q : PInst) : Prim :=
  if q.cls = sumC then sum else if q.cls = countC then count else if q.cls = cumSumC then cumSum else if q.cls = cumCountC then cumCount
  else eq (q.args.headD .null)

def sale : DFeat := .mk (.identity "sale" "Index") "sales" "sale" [] []
def kind : DFeat := .mk (.identity "kind" "Categorical") "sales" "kind" [] []
def ofShop : DFeat := .mk (.identity "shop" "Id") "sales" "shop" [] []
def isA : DFeat := .mk (.trans (eq (.str "a"))) "sales" "equal_scalar(kind = a)" [kind] []
def running : DFeat := .mk (.groupby cumSum) "sales" "cum_sum(value by shop)" [value, ofShop] []
def built : List DFeat :=
  [total,
   .mk (.agg [(false, link)] count) "shops" "count(sales.sale)" [sale] [],
   .mk (.agg [(false, link)] sum) "shops" "sum(sales.value)" [value] [],
   .mk (.agg [(false, link)] count) "shops" "count(sales.sale WHERE equal_scalar(kind = a))" [sale] [isA],
   .mk (.agg [(false, link)] sum) "shops" "sum(sales.cum_sum(value by shop))" [running] []]

theorem runs : dfsFeaturesOn lang eq classes train savedArgs = .ok built := by rfl

theorem made (f g : DFeat) (hf : f ∈ built) (h : MadeOf f g) : g ∈ built ++ [sale, value, kind, ofShop, isA, running] := by
  have closed : ∀ f ∈ built ++ [sale, value, kind, ofShop, isA, running], ∀ d ∈ f.bases ++ f.wh,
      d ∈ built ++ [sale, value, kind, ofShop, isA, running] := by
    intro f hf d hd
    simp only [built, List.cons_append, List.nil_append, List.mem_cons, List.not_mem_nil, or_false] at hf
    rcases hf with rfl | rfl | rfl | rfl | rfl | rfl | rfl | rfl | rfl | rfl | rfl <;>
      simp [total, sale, value, kind, ofShop, isA, running, DFeat.bases, DFeat.wh] at hd ⊢ <;> grind
  have : ∀ f g, DepUses [] f g → f ∈ built ++ [sale, value, kind, ofShop, isA, running] → g ∈ built ++ [sale, value, kind, ofShop, isA, running] := by
    intro f g h
    induction h with
    | self => exact id
    | dep _ hd _ ih => exact fun hf => ih (closed _ hf _ hd)
  exact this f g h (List.mem_append_left _ hf)

theorem told : FeaturesTold built := by
  intro f hf f' hf' g g' h h' e
  have h1 := made f g hf h
  have h2 := made f' g' hf' h'
  simp only [built, List.cons_append, List.nil_append, List.mem_cons, List.not_mem_nil, or_false] at h1 h2
  rcases h1 with rfl | rfl | rfl | rfl | rfl | rfl | rfl | rfl | rfl | rfl | rfl <;>
    rcases h2 with rfl | rfl | rfl | rfl | rfl | rfl | rfl | rfl | rfl | rfl | rfl <;> first | rfl | exact absurd e (by decide)

theorem grouped : GroupedByOther built := by
  intro f hf g h p t k hk hb
  have h1 := made f g hf h
  simp only [built, List.cons_append, List.nil_append, List.mem_cons, List.not_mem_nil, or_false] at h1
  rcases h1 with rfl | rfl | rfl | rfl | rfl | rfl | rfl | rfl | rfl | rfl | rfl <;> first | cases hk | skip
  match t, hb with
  | [a], hb =>
    cases hb
    simp only [List.mem_singleton]
    intro e
    exact absurd (congrArg DFeat.name e) (by decide)
  | _ :: _ :: t, hb => simp [running, DFeat.bases] at hb

theorem seeds : SeedsMadeOn classes.cls train savedArgs.seeds := by
  intro s hs g hg
  simp only [savedArgs, List.mem_singleton] at hs
  subst hs
  cases hg with
  | self =>
    exact ⟨by simp [total, DFeat.bases], by simp [total, DFeat.wh], by simp [train, marked], ⟨_, rfl, rfl⟩, _, rfl,
      by simp [total, DFeat.bases, value, DFeat.entity, link], by simp [total, DFeat.wh]⟩
  | dep _ hd h =>
    simp only [total, DFeat.bases, DFeat.wh, List.append_nil, List.mem_singleton] at hd
    subst hd
    cases h with
    | self =>
      exact ⟨rfl, rfl, { sales [] with vars := salesVars }, by simp [train, marked], rfl, var "value" "numeric", by simp [salesVars], rfl, by decide⟩
    | dep _ hd => simp [value, DFeat.bases, DFeat.wh] at hd

theorem linked : LinksThere train := by
  intro r hr
  simp only [train, marked, List.mem_singleton] at hr
  subst hr
  exact ⟨⟨shops, by simp [train, marked], rfl, var "id" "index", by simp [shops], rfl⟩,
    ⟨{ sales [] with vars := salesVars }, by simp [train, marked], rfl, var "shop" "id", by simp [salesVars], rfl⟩⟩

theorem hasVars : HasVars train train := by
  intro x hx
  simp only [train, marked, List.mem_cons, List.not_mem_nil, or_false] at hx
  rcases hx with rfl | rfl
  · refine ⟨_, rfl, ?_⟩
    intro v hv
    simp only [shops, List.mem_singleton] at hv
    subst hv
    exact ⟨_, rfl, rfl⟩
  · refine ⟨_, rfl, ?_⟩
    intro v hv
    simp only [salesVars, List.mem_cons, List.not_mem_nil, or_false] at hv
    rcases hv with rfl | rfl | rfl | rfl | rfl <;> exact ⟨_, rfl, rfl⟩

theorem primsOk : PrimsStorable inst prim root (PrimOfCall eq train savedArgs) := by
  have cases' : ∀ p, PrimOfCall eq train savedArgs p → p = sum ∨ p = count ∨ p = cumSum ∨ p = eq (.str "a") := by
    rintro p (h | h | h | ⟨x, hx, v, hv, i, hi, rfl⟩ | ⟨s, hs, _⟩)
    · simp only [savedArgs, args, List.mem_cons, List.not_mem_nil, or_false] at h
      rcases h with rfl | rfl <;> simp
    · simp [savedArgs, args] at h
    · simp only [savedArgs, List.mem_singleton] at h
      simp [h]
    · simp only [train, marked, List.mem_cons, List.not_mem_nil, or_false] at hx
      rcases hx with rfl | rfl
      · simp only [shops, List.mem_singleton] at hv
        subst hv
        simp [var] at hi
      · simp only [salesVars, List.mem_cons, List.not_mem_nil, or_false] at hv
        rcases hv with rfl | rfl | rfl | rfl | rfl <;> simp [var] at hi
        subst hi
        simp
    · rename_i hu
      obtain ⟨g, hg, hp⟩ := hu
      simp only [savedArgs, List.mem_singleton] at hs
      subst hs
      cases hg with
      | self =>
        rcases hp with ⟨_, hp⟩ | hp | hp <;> simp [total, DFeat.kind] at hp
        simp [hp.2]
      | dep _ hd h =>
        simp only [total, DFeat.bases, DFeat.wh, List.append_nil, List.mem_singleton] at hd
        subst hd
        cases h with
        | self => rcases hp with ⟨_, hp⟩ | hp | hp <;> simp [value, DFeat.kind] at hp
        | dep _ hd => simp [value, DFeat.bases, DFeat.wh] at hd
  constructor
  · intro p hp
    rcases cases' p hp with rfl | rfl | rfl | rfl <;> decide
  · intro p hp
    simp only [Storable, ← mem_descendants]
    rcases cases' p hp with rfl | rfl | rfl | rfl <;> refine ⟨by decide, by decide, by decide, by decide, ?_⟩ <;> intro i n d b h1 h2 <;>
      match i with
      | 0 => revert h1; simp [inst, sum, count, cumSum, eq, DfsExample.aggP, transP, sumC, countC, cumSumC, equalC]
      | i + 1 => revert h1; simp [inst, sum, count, cumSum, eq, DfsExample.aggP, transP, sumC, countC, cumSumC, equalC]

/-- The call with an input that is also the group. -/
def ownArgs : DfsArgs := { args with target := "sales", maxDepth := 1, aggs := [], wheres := [], groupbys := [cumCount] }
def own : DFeat := .mk (.groupby cumCount) "sales" "cum_count(shop by shop)" [ofShop, ofShop] []
end SavedExample

open SavedExample PipelineExample in
/-- `C84_matrix_partial` applies: features with a condition, a group and a seed feature, used on later data. -/
example : ∃ file, saveFeatures (built.map (storedFeat inst)) = .ok file ∧ ∃ enough, ∀ limit, enough ≤ limit → ∀ (R : Reading) (c : CfmArgs),
    matrixFromFile DfsExample.lang prim classes R root limit train later file c =
      dfsOn DfsExample.lang DfsExample.eq classes R later savedArgs c := by
  obtain ⟨file, h1, n, h2⟩ := C84_matrix_partial DfsExample.lang DfsExample.eq classes inst prim root DfsExample.lang_perm train linked savedArgs seeds
    primsOk built runs (by simp [built]) told grouped
  exact ⟨file, h1, n, fun limit hl R c => h2 limit hl train hasVars later ⟨rfl, rfl⟩ R c⟩

open SavedExample PipelineExample in
/-- C84 fails for a group-by feature that is grouped by its own input, such as `CUM_COUNT(shop) by shop`: `dfs` builds it when asked to
count by group, but the loaded feature has no input left. -/
theorem C84_own_group_violated :
    ∃ r file g, dfsFeaturesOn DfsExample.lang DfsExample.eq classes train ownArgs = .ok r ∧ own ∈ r ∧
      saveFeatures [storedFeat inst own] = .ok file ∧ (∀ limit, 2 ≤ limit → loadOn prim classes root limit train file = .ok [g]) ∧
      g.name = own.name ∧ own.bases = [ofShop, ofShop] ∧ g.bases = [ofShop] := by
  refine ⟨[ofShop, .mk (.identity "time" "TimeIndex") "sales" "time" [] [], value, kind, own], _,
    .mk (.groupby cumCount) "sales" "cum_count(shop by shop)" [ofShop] [], rfl, by simp, rfl, ?_, rfl, rfl, rfl⟩
  intro limit hl
  obtain ⟨k, rfl⟩ : ∃ k, limit = k + 2 := ⟨limit - 2, by omega⟩
  rfl

end FT
