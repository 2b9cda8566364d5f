import Verif.Props.DfsApprox
import Verif.Props.DfsMatrixWitness
import Verif.Props.CalculatorPlain
/-!
# C34, C79: concrete calls with `approximate`
-/
namespace FT
open Spec

namespace CalcExample

theorem computable : Computable env targets "sessions" where
  entityOk := sessionsOk
  window := rfl
  target := fun f hf => ⟨regular.targetEntity f hf, regular.noSlice f hf⟩
  wellFormed := by
    intro g hg
    refine ⟨wf g hg, fun x hx => ?_⟩
    rcases needed hg with rfl | rfl | rfl | rfl
    · have : x = (true, rel) := by simpa [Feat.path, lookup, Feat.kind, Feat.info, Kind.path] using hx
      subst this; decide
    · cases hx
    · have : x = (false, rel) := by simpa [Feat.path, total, Feat.kind, Feat.info, Kind.path] using hx
      subst this; decide
    · cases hx
  brought := by
    intro f r hf hk b hb
    rcases needed hf with rfl | rfl | rfl | rfl <;> cases hk
    rw [show b = total from by simpa [lookup, Feat.bases] using hb]
    rfl
  direct := by
    intro f g r hf hg hk hk' hb
    rcases needed hf with rfl | rfl | rfl | rfl <;> cases hk <;> rcases needed hg with rfl | rfl | rfl | rfl <;> cases hk'
    rfl
  apart := apart

theorem canApproximate : CanApproximate env targets where
  full := by
    intro p g _ x hx hu
    rcases needed hx with rfl | rfl | rfl | rfl <;> cases hu
  links := by
    intro p g h x hx
    obtain ⟨rfl, rfl⟩ := ApproxExample.approx_targets h
    simp only [List.mem_singleton] at hx
    subst hx
    decide

end CalcExample

/-- The plain conditions hold for the call of `C34_values_now_partial`. -/
example : ∃ m, calculateFeatureMatrix ApproxExample.callNow = .ok m ∧
    m.rows = [(.num 12, some 9, [.num 0, .num (-9), .num 1]), (.num 10, some 0, [.num 5, .num (-5), .num 0]),
      (.num 12, some 2, [.num 0, .num (-9), .num 2]), (.num 13, some 2, [.num 0, .num (-100), .num 3])] :=
  ⟨_, C34_plain_now_partial ApproxExample.callNow _ _ rfl ["label"] CfmExample.cut rfl _ rfl ApproxExample.bin ApproxExample.bins
    ⟨_, by simp [CfmExample.cut]; exact .inl rfl, by simp⟩ (by decide) (by decide) (by decide) ApproxExample.onlyTargets
    CalcExample.computable CalcExample.canApproximate (by
      intro r hr r' hr' t t' _ _ _ _ h
      have : ∀ r ∈ CfmExample.cut, r.id ∈ (worldOf { CalcExample.env with timeLast := 100, window := none }).ids "sessions" := by decide +kernel
      exact absurd (this r hr) h) CfmExample.sizeOk CfmExample.fair, by decide +kernel⟩

/-- A single cutoff time: the bin of session 12 is that of time 2, the rest is computed at the time of the call. -/
example : ∃ m, calculateFeatureMatrix { ApproxExample.callNow with cutoff := .single 2, instanceIds := some [.num 12, .num 13] } = .ok m ∧
    m.rows = [(.num 12, some 2, [.num 0, .num (-9)]), (.num 13, some 2, [.num 0, .num (-100)])] :=
  ⟨_, C34_single_now_partial { ApproxExample.callNow with cutoff := .single 2, instanceIds := some [.num 12, .num 13] } _ _ rfl 2 (.inl rfl) _ rfl
    ApproxExample.bin ApproxExample.bins _ rfl (by decide) (by decide) ApproxExample.onlyTargets CalcExample.computable CalcExample.canApproximate
    CfmExample.sizeOk CfmExample.fair, by decide +kernel⟩

/-! ## A call of `dfs` -/

namespace DfsApproxExample
open DfsMatrixExample (up1 up2 env ents sum reading entC entS entL customersOk sessionsOk logOk dataFor links)
open DfsExample (lang eq)

/-- Features of the sessions: the customer, the sum over the log, and what the customer has in total. -/
def args : DfsArgs := { DfsMatrixExample.args with target := "sessions", aggs := [sum], trans := [], seeds := [] }

def span : Approx := .delta { times := [("ms", 5)], delta := none }
def bin (t : Int) : Int := t / 5000000 * 5000000
theorem bins : Bins span bin :=
  ⟨"ms", 5, 1000000, rfl, rfl, by decide, fun t => isFloor_div 5000000 t (by decide)⟩

def cut : List CutRow := [⟨.num 11, some 5000009, []⟩, ⟨.num 10, some 4, []⟩, ⟨.num 11, some 4, []⟩]

def call : CfmArgs :=
  { DfsMatrixExample.call with cutoff := .table [] cut, instanceIds := none, approximate := some span, inIndex := true }

def dKey : DFeat := .mk (.identity "customer_id" "Id") "sessions" "customer_id" [] []
def dValue : DFeat := .mk (.identity "value" "Numeric") "log" "value" [] []
def dOwn : DFeat := .mk (.agg [(false, up2)] sum) "sessions" "sum(log.value)" [dValue] []
def dTotal : DFeat := .mk (.agg [(false, up1), (false, up2)] sum) "customers" "sum(sessions.log.value)" [dValue] []
def dUp : DFeat := .mk (.direct up1) "sessions" "customers.sum(sessions.log.value)" [dTotal] []

set_option maxRecDepth 10000 in
theorem built : dfsFeatures lang eq ents env.rels args = .ok [dKey, dOwn, dUp] := by rfl

abbrev rd (f : DFeat) : Feat := readFeat reading lang env.rels f
def targets : List Feat := [dKey, dOwn, dUp].map rd

theorem needed {g : Feat} (h : NeededBy targets g) : g ∈ [rd dKey, rd dOwn, rd dUp, rd dTotal, rd dValue] := by
  obtain ⟨f, hf, hn⟩ := h
  simp only [targets, List.map_cons, List.map_nil, List.mem_cons, List.not_mem_nil, or_false] at hf
  rcases hn with rfl | hu
  · rcases hf with rfl | rfl | rfl <;> simp
  · rw [← mem_deepDeps] at hu
    rcases hf with rfl | rfl | rfl
    · have : deepDeps [] (rd dKey) = [] := rfl
      rw [this] at hu; cases hu
    · have : deepDeps [] (rd dOwn) = [rd dValue] := rfl
      rw [this] at hu; simp only [List.mem_cons, List.not_mem_nil, or_false] at hu ⊢; simp [hu]
    · have : deepDeps [] (rd dUp) = [rd dTotal, rd dValue] := rfl
      rw [this] at hu; simp only [List.mem_cons, List.not_mem_nil, or_false] at hu ⊢; rcases hu with h | h <;> simp [h]

theorem seedsComputable : SeedsComputable lang env (args.seeds.map rd) where
  whole := by intro s hs; cases hs
  wellFormed := by rintro g ⟨_, h, _⟩; cases h
  direct := by rintro g q ⟨_, h, _⟩; cases h

theorem primsOk : PrimsOk lang eq reading args where
  agg := by
    intro p hp
    simp only [args, List.mem_cons, List.not_mem_nil, or_false] at hp
    subst hp
    exact ⟨by decide, fun _ _ => rfl⟩
  trans := by
    rintro p (hp | hp | ⟨v, rfl⟩)
    · cases hp
    · cases hp
    · exact ⟨Nat.one_pos, CalcExample.negOk.1, fun _ => CalcExample.negOk.2⟩
  scalar := fun _ => rfl
  slices := DfsMatrixExample.primsOk.slices

theorem namesApart : NamesApart env targets where
  identify := by
    intro f g hf hg h
    have h1 := needed hf
    have h2 := needed hg
    simp only [List.mem_cons, List.not_mem_nil, or_false] at h1 h2
    rcases h1 with rfl | rfl | rfl | rfl | rfl <;> rcases h2 with rfl | rfl | rfl | rfl | rfl <;>
      first | rfl | exact absurd h (by decide)
  columns := by
    intro f g hf hg _ _ he hne
    have h1 := needed hf
    have h2 := needed hg
    simp only [List.mem_cons, List.not_mem_nil, or_false] at h1 h2
    rcases h1 with rfl | rfl | rfl | rfl | rfl <;> rcases h2 with rfl | rfl | rfl | rfl | rfl <;>
      first | exact absurd rfl hne | exact absurd he (by decide) | decide
  keys := by
    intro f hf _ hk
    have h1 := needed hf
    simp only [List.mem_cons, List.not_mem_nil, or_false] at h1
    rcases h1 with rfl | rfl | rfl | rfl | rfl
    · exact absurd rfl (hk "customer_id")
    · decide
    · decide
    · decide
    · exact absurd rfl (hk "value")
  paths := by
    intro f g hf hg _ _ he hc
    have h1 := needed hf
    have h2 := needed hg
    simp only [List.mem_cons, List.not_mem_nil, or_false] at h1 h2
    rcases h1 with rfl | rfl | rfl | rfl | rfl <;> rcases h2 with rfl | rfl | rfl | rfl | rfl <;>
      first | exact absurd he (by decide) | exact absurd hc (by decide) | exact fun _ => rfl
  linkKeys := by
    intro c n chain h hl
    obtain ⟨rfl, rfl, rfl⟩ := links h hl
    decide
  linkFeatures := by
    intro c n chain h hl f hf _ he hn
    obtain ⟨rfl, rfl, rfl⟩ := links h hl
    have h1 := needed hf
    simp only [List.mem_cons, List.not_mem_nil, or_false] at h1
    rcases h1 with rfl | rfl | rfl | rfl | rfl <;> first | exact absurd he (by decide) | exact absurd hn (by decide)

theorem slicesLocal : SlicesLocal targets := by
  intro f hf p hk d hd n hn
  have h1 := needed (neededBy_dep hf (.inl hd))
  simp only [List.mem_cons, List.not_mem_nil, or_false] at h1
  rcases h1 with rfl | rfl | rfl | rfl | rfl <;> cases hn

theorem conditionsApart : ConditionsApart targets := by
  intro f hf hl
  have h1 := needed hf
  simp only [List.mem_cons, List.not_mem_nil, or_false] at h1
  rcases h1 with rfl | rfl | rfl | rfl | rfl <;> exact absurd hl (by decide)

theorem approximated_path {p : List Edge} {g : Feat} (h : Approximated targets p g) : p = [(true, up1)] := by
  obtain ⟨f, hf, _, hc, _⟩ := h
  have h1 := needed ⟨f, hf, .inl rfl⟩
  simp only [List.mem_cons, List.not_mem_nil, or_false] at h1
  rcases h1 with rfl | rfl | rfl | rfl | rfl <;> cases hc with
  | last hk hb _ => cases hk <;> rfl
  | more hk hb hc' =>
    cases hk <;> cases hb <;> cases hc' with
    | last hk' _ _ => cases hk'
    | more hk' _ _ => cases hk'

theorem canApproximate : CanApproximate env targets where
  full := by
    intro p g _ x hx hu
    have h1 := needed hx
    simp only [List.mem_cons, List.not_mem_nil, or_false] at h1
    rcases h1 with rfl | rfl | rfl | rfl | rfl <;> cases hu
  links := by
    intro p g h x hx
    have hp := approximated_path h
    subst hp
    simp only [List.mem_singleton] at hx
    subst hx
    decide

/-- The sum over the log is computed at the cutoff. -/
theorem notOnly : ¬ OnlyApproximated targets := by
  intro h
  have hcom := dfs_computable DfsExample.lang_perm seedsComputable dataFor primsOk built namesApart slicesLocal conditionsApart
  have hn : ∀ n, n ∈ hiddenBy (gatherApproximate targets) [(true, up1)] ↔ ∃ p g, Approximated targets p g ∧ n = g.uniqueName := by
    intro n
    refine ((gather_names hcom _ n).trans ?_)
    constructor
    · rintro ⟨g, hg⟩; exact ⟨_, g, hg⟩
    · rintro ⟨p, g, ⟨f, hf, hf', hc, hg⟩, hg'⟩
      refine ⟨g, ⟨f, hf, hf', ?_, hg⟩, hg'⟩
      have h1 := needed ⟨f, hf, .inl rfl⟩
      simp only [List.mem_cons, List.not_mem_nil, or_false] at h1
      rcases h1 with rfl | rfl | rfl | rfl | rfl <;> cases hc with
      | last hk hb h => cases hk <;> exact .last rfl hb h
      | more hk hb hc' =>
        cases hk <;> cases hb <;> cases hc' with
        | last hk' _ _ => cases hk'
        | more hk' _ _ => cases hk'
  exact (h _ hn (rd dOwn) (by simp [targets])).1 ⟨_, _, _, _, rfl⟩

end DfsApproxExample

open DfsApproxExample in
/-- The hypotheses hold for a concrete call. In the rows of time 4 the total of the customer is that of time 0, when the log was
empty; in the other row it is that of time 5000000. The sum of the session itself is that of the cutoff. -/
example : ∃ m, dfsMatrix DfsExample.lang DfsExample.eq DfsMatrixExample.ents DfsMatrixExample.reading args call = .ok (m, [dKey, dOwn, dUp]) ∧
    m.cols = ["customer_id", "sum(log.value)", "customers.sum(sessions.log.value)"] ∧
    m.rows = [(.num 11, some 5000009, [.num 1, .num 107, .num 112]), (.num 10, some 4, [.num 1, .num 5, .null]), (.num 11, some 4, [.num 1, .num 7, .null])] :=
  ⟨_, (C79_approximate_partial _ _ DfsMatrixExample.ents DfsMatrixExample.reading args call DfsExample.lang_perm seedsComputable DfsMatrixExample.dataFor
    primsOk _ built (by simp) namesApart slicesLocal conditionsApart [] cut rfl span rfl bin bins notOnly canApproximate
    ⟨⟨.num 11, some 5000009, []⟩, by simp [cut], by simp⟩ (by decide) (by decide) (by decide) (by intro s hs; cases hs) trivial).1,
    by decide +kernel, by decide +kernel⟩

open DfsApproxExample in
/-- A single cutoff time, for all sessions. -/
example : ∃ m, dfsMatrix DfsExample.lang DfsExample.eq DfsMatrixExample.ents DfsMatrixExample.reading args { call with cutoff := .single 5000009 } =
      .ok (m, [dKey, dOwn, dUp]) ∧
    m.rows = [(.num 10, some 5000009, [.num 1, .num 5, .num 112]), (.num 11, some 5000009, [.num 1, .num 107, .num 112])] :=
  ⟨_, C79_approximate_single_partial _ _ DfsMatrixExample.ents DfsMatrixExample.reading args { call with cutoff := .single 5000009 }
    DfsExample.lang_perm seedsComputable DfsMatrixExample.dataFor primsOk _ built (by simp) namesApart slicesLocal conditionsApart 5000009 (.inl rfl)
    span rfl bin bins canApproximate _ (.inr ⟨notOnly, rfl⟩) _ (.inr ⟨rfl, rfl⟩) (by decide +kernel) (by intro s hs; cases hs) trivial,
    by decide +kernel⟩

open DfsApproxExample in
/-- Given instances, one of them unknown. -/
example : ∃ m, dfsMatrix DfsExample.lang DfsExample.eq DfsMatrixExample.ents DfsMatrixExample.reading args
      { call with cutoff := .single 4, instanceIds := some [.num 11, .num 77] } = .ok (m, [dKey, dOwn, dUp]) ∧
    m.rows = [(.num 11, some 4, [.num 1, .num 7, .null]), (.num 77, some 4, [.null, .null, .null])] :=
  ⟨_, C79_approximate_single_partial _ _ DfsMatrixExample.ents DfsMatrixExample.reading args { call with cutoff := .single 4, instanceIds := some [.num 11, .num 77] }
    DfsExample.lang_perm seedsComputable DfsMatrixExample.dataFor primsOk _ built (by simp) namesApart slicesLocal conditionsApart 4 (.inl rfl)
    span rfl bin bins canApproximate _ (.inr ⟨notOnly, rfl⟩) _ (.inl ⟨rfl, by decide⟩) (by decide) (by intro s hs; cases hs) trivial,
    by decide +kernel⟩

namespace DfsApproxExample

/-- CUM_SUM is computed on full entities. -/
def cumSum := DfsExample.transP "CumSum" "cum_sum" ["Numeric"]
def readingCum : Reading := { DfsMatrixExample.reading with trans := fun _ => ApproxExample.cumPrim }
def argsCum : DfsArgs := { args with trans := [cumSum], maxDepth := 3 }
/-- There is also a session of the other customer. -/
def three : Ent :=
  { DfsMatrixExample.sessions with df := { cols := ["sid", "customer_id"], rows := DfsMatrixExample.sessions.df.rows ++ [CalcExample.row [("sid", .num 12), ("customer_id", .num 2)]] } }
def callCum (cut : List CutRow) : CfmArgs :=
  { call with env := { DfsMatrixExample.env with ent := fun e => if e = "sessions" then some three else DfsMatrixExample.env.ent e }, cutoff := .table [] cut }

/-- The last column of the matrix. -/
def lastCells (cut : List CutRow) (ap : Option Approx) : Except DfsErr (List (Option Val)) :=
  (dfsMatrix DfsExample.lang DfsExample.eq DfsMatrixExample.ents readingCum argsCum { callCum cut with approximate := ap }).map fun x =>
    x.1.rows.map fun r => r.2.2.getLast?

end DfsApproxExample

open DfsApproxExample in
/-- C79 fails with `approximate` for transforms that are computed on full entities, which the synthesis builds on the aggregations of
the parents: the running sum over the customers, in the row of session 12, depends on whether there is another row in the cutoff table.
It should be 112. -/
theorem C79_approximate_full_entity_violated :
    (dfsFeatures DfsExample.lang DfsExample.eq DfsMatrixExample.ents DfsMatrixExample.env.rels argsCum).map (fun r => r.getLast?.map DFeat.name) =
      .ok (some "customers.cum_sum(sum(sessions.log.value))") ∧
    lastCells [⟨.num 12, some 5000009, []⟩] (some span) = .ok [some (.num 0)] ∧
    lastCells [⟨.num 12, some 5000009, []⟩, ⟨.num 10, some 5000009, []⟩] (some span) = .ok [some (.num 112), some (.num 112)] ∧
    lastCells [⟨.num 12, some 5000009, []⟩] none = .ok [some (.num 112)] := by
  decide +kernel

end FT
