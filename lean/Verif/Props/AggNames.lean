import Verif.Lemmas.AggNames
/-! # C70: Features aggregated together do not get mixed up -/
namespace FT
open Spec

/-- Each feature of a pass gets one column, with the result of its own function for its own inputs, in whatever order, with whatever
function objects. Missing: two counts of one input, and conditions that are also inputs. -/
theorem C70_own_columns_partial (fresh : Nat) (fs : List AggReq) (hnames : (fs.map AggReq.name).Nodup)
    (hids : ∀ f ∈ fs, ∀ id, f.function = .object id → id < fresh) (hone : OneCount fs)
    (hinputs : ∀ f ∈ fs, ByAgg f → f.bases.length = 1) :
    ∃ columns, aggPass fresh fs = .ok columns ∧ columns.Perm (fs.map ownColumn) := by
  obtain ⟨A, hA, hA1, hA2⟩ := aggInv_fold fs ⟨[], [], [], fresh⟩ [] ⟨rfl, by simp, .refl _, by simp, by simp⟩ (by simpa using hone) (by simp) hids
  rw [List.nil_append] at hA
  simp only [List.nil_append] at hA2
  unfold aggPass
  simp only
  generalize fs.foldl aggStep ⟨[], [], [], fresh⟩ = s at *
  have hAname : (A.map fun x => x.1.name).Nodup := by
    have e : (A.map fun x => x.1.name) = (fs.filter canAggReq).map AggReq.name := by
      rw [← hA1, List.map_map]; rfl
    rw [e]
    exact List.Nodup.sublist (List.Sublist.map _ List.filter_sublist) hnames
  have hbase : ∀ x ∈ A, x.1.bases = [x.1.bases.headD ""] := by
    intro x hx
    have hx' : x.1 ∈ fs.filter canAggReq := by rw [← hA1]; exact List.mem_map.mpr ⟨x, hx, rfl⟩
    obtain ⟨hm, hc⟩ := List.mem_filter.mp hx'
    obtain ⟨b, hb⟩ := List.length_eq_one_iff.mp (hinputs x.1 hm ((canAggReq_iff _).mp hc))
    rw [hb]; rfl
  have hkeys : (s.rename.map Prod.fst).Nodup := by
    rw [hA.rename, List.map_map]
    exact hA.keys
  have hlook : ∀ x ∈ A, s.rename.lookup (aggKey (x.1.bases.headD "") x.2.funcname) = some x.1.name := by
    intro x hx
    apply lookup_of_nodup_keys _ hkeys
    rw [hA.rename]
    exact List.mem_map.mpr ⟨x, hx, rfl⟩
  have hren := renameColumns_ok s.rename (fun c => (s.rename.lookup (aggKey c.1 c.2.funcname)).getD "") (aggColumns s.toAgg) (by
    intro c hc
    obtain ⟨x, hx, rfl⟩ := List.mem_map.mp (hA.columns.mem_iff.mp hc)
    simp only
    rw [hlook x hx]
    rfl)
  rw [hren]
  refine ⟨_, rfl, ?_⟩
  have hcs : ((aggColumns s.toAgg).map fun c => (⟨(s.rename.lookup (aggKey c.1 c.2.funcname)).getD "", c.2.calls, [c.1]⟩ : AggColumn)).Perm
      (A.map fun x => ownColumn x.1) := by
    refine (hA.columns.map _).trans ?_
    rw [List.map_map]
    apply List.Perm.of_eq
    apply List.map_congr_left
    intro x hx
    simp only [Function.comp, hlook x hx, hA.calls x hx, ownColumn]
    rw [← hbase x hx]
    rfl
  generalize ((aggColumns s.toAgg).map fun c => (⟨(s.rename.lookup (aggKey c.1 c.2.funcname)).getD "", c.2.calls, [c.1]⟩ : AggColumn)) = cs at *
  have hcn : (cs.map AggColumn.name).Nodup := by
    refine (hcs.map AggColumn.name).nodup_iff.mpr ?_
    rw [List.map_map]
    exact hAname
  have hsel : (s.rename.flatMap fun kn => cs.filter fun c => c.name = kn.2) = A.map fun x => ownColumn x.1 := by
    rw [hA.rename, List.flatMap_map]
    have : ∀ B : List (AggReq × Passed), (∀ x ∈ B, x ∈ A) →
        (B.flatMap fun x => cs.filter fun c => c.name = x.1.name) = B.map fun x => ownColumn x.1 := by
      intro B
      induction B with
      | nil => intro _; rfl
      | cons x B ih =>
        intro hB
        rw [List.flatMap_cons, List.map_cons, ih fun y hy => hB y (List.mem_cons_of_mem _ hy)]
        have := filter_name_single cs hcn (ownColumn x.1) (hcs.mem_iff.mpr (List.mem_map.mpr ⟨x, hB x List.mem_cons_self, rfl⟩))
        exact congrArg (· ++ _) this
    exact this A fun x hx => hx
  rw [hsel, hA2]
  have e1 : (fs.filter fun f => !canAggReq f).map (fun f => (⟨f.name, f.function, f.bases⟩ : AggColumn)) = (fs.filter fun f => !canAggReq f).map ownColumn := rfl
  have e2 : (A.map fun x => ownColumn x.1) = (fs.filter canAggReq).map ownColumn := by
    rw [← hA1, List.map_map]; rfl
  rw [e1, e2, ← List.map_append]
  apply List.Perm.map
  exact List.perm_append_comm.trans (List.filter_append_perm canAggReq fs)

/-- Without conditions every feature calculated by `groupby.agg` has one input. -/
theorem C70_no_condition (f : AggReq) (h : f.whereName = none) (hb : ByAgg f) : f.bases.length = 1 := by
  obtain ⟨_, _, h3⟩ := hb
  have e : (f.bases.filter fun b => f.whereName ≠ some b) = f.bases := List.filter_eq_self.mpr (by simp [h])
  rwa [e] at h3

namespace AggNamesExample
def sum1 : AggReq := ⟨"SUM(t.a)", .object 7, ["a"], none, false, 1⟩
def sum2 : AggReq := ⟨"total", .object 7, ["a"], none, false, 1⟩
def sum3 : AggReq := ⟨"again", .object 7, ["a"], none, false, 1⟩
def max1 : AggReq := ⟨"MAX(t.b)", .object 8, ["b"], none, false, 1⟩
def trend : AggReq := ⟨"TREND(t.a, t)", .object 9, ["a", "t"], none, false, 1⟩
def count1 : AggReq := ⟨"COUNT(t)", .count, ["a"], none, false, 1⟩
def count2 : AggReq := ⟨"number", .count, ["a"], none, false, 1⟩
/-- The hypotheses are met by features with one function three times. -/
example : let fs := [sum1, trend, sum2, max1, count1, sum3]
    (fs.map AggReq.name).Nodup ∧ (∀ f ∈ fs, ∀ id, f.function = .object id → id < 10) ∧ OneCount fs ∧ (∀ f ∈ fs, ByAgg f → f.bases.length = 1) := by
  refine ⟨by decide, ?_, ?_, ?_⟩
  · intro f hf id h
    simp only [List.mem_cons, List.not_mem_nil, or_false] at hf
    rcases hf with rfl | rfl | rfl | rfl | rfl | rfl <;> cases h <;> decide
  · unfold OneCount
    simp [sum1, sum2, sum3, trend, max1, count1]
  · intro f hf hb
    refine C70_no_condition f ?_ hb
    simp only [List.mem_cons, List.not_mem_nil, or_false] at hf
    rcases hf with rfl | rfl | rfl | rfl | rfl | rfl <;> rfl
end AggNamesExample
open AggNamesExample

/-- Two counts of one input: the first feature gets no column, the second one gets two. -/
theorem C70_two_counts_violated : ∃ columns, aggPass 10 [count1, count2] = .ok columns ∧
    count1.name ∉ columns.map AggColumn.name ∧ (columns.filter fun c => c.name = count2.name).length = 2 :=
  ⟨[⟨"number", .count, ["a"]⟩, ⟨"number", .count, ["a"]⟩], by decide +kernel, by decide, by decide⟩

/-- A function of two inputs is called with the first one only, if the condition is one of them. -/
theorem C70_condition_violated : ∃ (f : AggReq) (columns : List AggColumn), f.whereName = some "w" ∧ f.bases = ["a", "w"] ∧
    aggPass 10 [f] = .ok columns ∧ columns ≠ [ownColumn f] ∧ columns.map AggColumn.columns = [["a"]] :=
  ⟨⟨"F", .object 3, ["a", "w"], some "w", false, 1⟩, [⟨"F", .object 3, ["a"]⟩], rfl, rfl, by decide +kernel, by decide, by decide⟩

end FT
