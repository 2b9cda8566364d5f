import Verif.Spec.EntryPoint
import Verif.Lemmas.MakePrim
/-! # Lemmas about watched calls -/
namespace FT
open Spec
variable {R E H W : Type}

theorem lookup_kwargPut (d : List (String × R)) (k : String) (v : R) (n : String) :
    (kwargPut d k v).lookup n = if n = k then some v else d.lookup n := by
  unfold kwargPut
  by_cases hs : (d.lookup k).isSome
  · rw [if_pos hs]
    induction d with
    | nil => simp at hs
    | cons x d ih =>
      obtain ⟨y, u⟩ := x
      by_cases hy : y = k
      · subst hy
        simp only [List.map_cons, if_true]
        by_cases hn : n = y
        · subst hn; simp [List.lookup]
        · rw [if_neg hn]
          simp only [List.lookup, beq_eq_false_iff_ne.mpr hn]
          clear ih hs
          induction d with
          | nil => rfl
          | cons z d ih =>
            obtain ⟨z, t⟩ := z
            by_cases hz : z = y
            · subst hz
              simp only [List.map_cons, if_true, List.lookup, beq_eq_false_iff_ne.mpr hn]
              exact ih
            · simp only [List.map_cons, if_neg hz, List.lookup]
              rw [ih]
      · have hs' : (d.lookup k).isSome := by
          simp only [List.lookup, beq_eq_false_iff_ne.mpr (Ne.symm hy)] at hs
          exact hs
        simp only [List.map_cons, if_neg hy, List.lookup]
        rw [ih hs']
        by_cases hn : n = k
        · subst hn
          rw [beq_eq_false_iff_ne.mpr (Ne.symm hy)]
        · simp only [if_neg hn]
  · rw [if_neg hs, lookup_app]
    by_cases hn : n = k
    · subst hn
      simp only [Bool.not_eq_true, Option.isSome_eq_false_iff, Option.isNone_iff_eq_none] at hs
      simp [hs, List.lookup]
    · simp [hn, List.lookup, beq_eq_false_iff_ne.mpr hn]

theorem lookup_putAll (ns : List String) (hn : ns.Nodup) (args : List R) (d : List (String × R)) :
    (∀ (i : Nat) n a, ns[i]? = some n → args[i]? = some a → ((args.zip ns).foldl (fun d x => kwargPut d x.2 x.1) d).lookup n = some a) ∧
    (∀ k, (∀ (i : Nat) n, i < args.length → ns[i]? = some n → n ≠ k) → ((args.zip ns).foldl (fun d x => kwargPut d x.2 x.1) d).lookup k = d.lookup k) := by
  induction args generalizing ns d with
  | nil => simp
  | cons a args ih =>
    cases ns with
    | nil => simp
    | cons n ns =>
      obtain ⟨hn1, hn2⟩ := List.nodup_cons.mp hn
      obtain ⟨ih1, ih2⟩ := ih ns hn2 (kwargPut d n a)
      simp only [List.zip_cons_cons, List.foldl_cons]
      constructor
      · intro i m b hm hb
        cases i with
        | zero =>
          simp only [List.getElem?_cons_zero, Option.some.injEq] at hm hb
          subst hm; subst hb
          rw [ih2 _ (by
            intro i p _ hp e
            subst e
            exact hn1 (List.mem_of_getElem? hp)), lookup_kwargPut, if_pos rfl]
        | succ i => exact ih1 i m b (by simpa using hm) (by simpa using hb)
      · intro k hk
        rw [ih2 k (by
          intro i p hi hp
          exact hk (i + 1) p (by simpa using hi) (by simpa using hp)), lookup_kwargPut,
          if_neg (Ne.symm (hk 0 n (by simp) rfl))]

theorem onCallKwargs_names (params : List EpParam) (hn : (params.map EpParam.name).Nodup) (args : List R) (kwargs : List (String × R)) :
    NamesArguments params args kwargs (onCallKwargs params args kwargs) := by
  obtain ⟨h1, h2⟩ := lookup_putAll (params.map EpParam.name) hn args kwargs
  constructor
  · intro i p a hp ha
    exact h1 i p.name a (by simp [hp]) ha
  · intro k hk
    apply h2 k
    intro i n hi hin
    simp only [List.getElem?_map, Option.map_eq_some_iff] at hin
    obtain ⟨p, hp, rfl⟩ := hin
    exact hk i p hi hp

theorem epCreate_quiet (hs : List (EpHandler R E H W)) (hq : ∀ h ∈ hs, Quiet h) (s : EpState R E H W) :
    ∃ o, epCreate hs s = (.ok (), ⟨o, s.world, s.log⟩) := by
  induction hs generalizing s with
  | nil => exact ⟨s.outside, rfl⟩
  | cons h hs ih =>
    obtain ⟨o', ho⟩ := (hq h (.head _)).create s.outside s.world
    simp only [epCreate, ho]
    exact ih (fun g hg => hq g (.tail _ hg)) _

theorem epCalls_quiet (hs : List (EpHandler R E H W)) (hq : ∀ h ∈ hs, Quiet h) (d : List (String × R)) (s : EpState R E H W) :
    ∃ o l, epCalls hs d s = (.ok (), ⟨o, s.world, l⟩) := by
  induction hs generalizing s d with
  | nil => exact ⟨s.outside, s.log, rfl⟩
  | cons h hs ih =>
    obtain ⟨d', o', ho⟩ := (hq h (.head _)).call d s.outside s.world
    simp only [epCalls, ho]
    exact ih (fun g hg => hq g (.tail _ hg)) _ _

theorem epCalls_log (hs : List (EpHandler R E H W)) (hq : ∀ h ∈ hs, Quiet h) (hr : ∀ h ∈ hs, OnlyReads h) (d : List (String × R))
    (s : EpState R E H W) :
    ∃ o, epCalls hs d s = (.ok (), ⟨o, s.world, s.log ++ hs.map fun h => .onCall h.id d⟩) := by
  induction hs generalizing s with
  | nil => exact ⟨s.outside, by simp [epCalls]⟩
  | cons h hs ih =>
    obtain ⟨d', o', ho⟩ := (hq h (.head _)).call d s.outside s.world
    have e := hr h (.head _) _ _ _ _ _ _ ho
    subst e
    simp only [epCalls, ho]
    obtain ⟨o, h2⟩ := ih (fun g hg => hq g (.tail _ hg)) (fun g hg => hr g (.tail _ hg)) ⟨o', s.world, s.log ++ [.onCall h.id d']⟩
    exact ⟨o, by rw [h2]; simp⟩

theorem epErrors_log (hs : List (EpHandler R E H W)) (hq : ∀ h ∈ hs, Quiet h) (e : E) (s : EpState R E H W) :
    ∃ o, epErrors hs e s = (.ok (), ⟨o, s.world, s.log ++ hs.map fun h => .onError h.id e⟩) := by
  induction hs generalizing s with
  | nil => exact ⟨s.outside, by simp [epErrors]⟩
  | cons h hs ih =>
    obtain ⟨o', ho⟩ := (hq h (.head _)).failed e s.outside s.world
    simp only [epErrors, ho]
    obtain ⟨o, h2⟩ := ih (fun g hg => hq g (.tail _ hg)) ⟨o', s.world, s.log ++ [.onError h.id e]⟩
    exact ⟨o, by rw [h2]; simp⟩

theorem epReturns_log (hs : List (EpHandler R E H W)) (hq : ∀ h ∈ hs, Quiet h) (v : R) (s : EpState R E H W) :
    ∃ o, epReturns hs v s = (.ok (), ⟨o, s.world, s.log ++ hs.map fun h => .onReturn h.id v⟩) := by
  induction hs generalizing s with
  | nil => exact ⟨s.outside, by simp [epReturns]⟩
  | cons h hs ih =>
    obtain ⟨o', ho⟩ := (hq h (.head _)).returned v s.outside s.world
    simp only [epReturns, ho]
    obtain ⟨o, h2⟩ := ih (fun g hg => hq g (.tail _ hg)) ⟨o', s.world, s.log ++ [.onReturn h.id v]⟩
    exact ⟨o, by rw [h2]; simp⟩

theorem epCreate_runs (hs : List (EpHandler R E H W)) (s : EpState R E H W) : (epCreate hs s).2.log = s.log := by
  induction hs generalizing s with
  | nil => rfl
  | cons h hs ih =>
    unfold epCreate
    split
    · rfl
    · rw [ih]

theorem epCalls_runs (hs : List (EpHandler R E H W)) (d : List (String × R)) (s : EpState R E H W) :
    ∃ l, (epCalls hs d s).2.log = s.log ++ l ∧ epRuns l = [] := by
  induction hs generalizing d s with
  | nil => exact ⟨[], by simp [epCalls], rfl⟩
  | cons h hs ih =>
    unfold epCalls
    split
    · exact ⟨_, rfl, rfl⟩
    · rename_i d' o w _
      obtain ⟨l, h1, h2⟩ := ih d' ⟨o, w, s.log ++ [.onCall h.id d]⟩
      exact ⟨.onCall h.id d :: l, by rw [h1]; simp, by simpa [epRuns] using h2⟩

theorem epErrors_runs (hs : List (EpHandler R E H W)) (e : E) (s : EpState R E H W) :
    ∃ l, (epErrors hs e s).2.log = s.log ++ l ∧ epRuns l = [] := by
  induction hs generalizing s with
  | nil => exact ⟨[], by simp [epErrors], rfl⟩
  | cons h hs ih =>
    unfold epErrors
    split
    · exact ⟨_, rfl, rfl⟩
    · rename_i o w _
      obtain ⟨l, h1, h2⟩ := ih ⟨o, w, s.log ++ [.onError h.id e]⟩
      exact ⟨.onError h.id e :: l, by rw [h1]; simp, by simpa [epRuns] using h2⟩

theorem epReturns_runs (hs : List (EpHandler R E H W)) (v : R) (s : EpState R E H W) :
    ∃ l, (epReturns hs v s).2.log = s.log ++ l ∧ epRuns l = [] := by
  induction hs generalizing s with
  | nil => exact ⟨[], by simp [epReturns], rfl⟩
  | cons h hs ih =>
    unfold epReturns
    split
    · exact ⟨_, rfl, rfl⟩
    · rename_i o w _
      obtain ⟨l, h1, h2⟩ := ih ⟨o, w, s.log ++ [.onReturn h.id v]⟩
      exact ⟨.onReturn h.id v :: l, by rw [h1]; simp, by simpa [epRuns] using h2⟩

end FT
