import Verif.Lemmas.EntryPoint
/-! # C71: Watching a call does not change it -/
namespace FT
open Spec
variable {R E H W : Type}

/-- With handlers that never raise and leave the program's objects alone the call has the result, or the exception, and the effects
it has without them. Missing: other handlers, see below. -/
theorem C71_transparent_partial (isException : E → Bool) (f : EpFun R E W) (handlers : List (EpHandler R E H W))
    (hq : ∀ h ∈ handlers, Quiet h) (args : List R) (kwargs : List (String × R)) (s : EpState R E H W) :
    (epWrapper isException f handlers args kwargs s).1 = (f.run args kwargs s.world).1 ∧
    (epWrapper isException f handlers args kwargs s).2.world = (f.run args kwargs s.world).2 := by
  unfold epWrapper
  dsimp only
  obtain ⟨o1, h1⟩ := epCreate_quiet handlers hq s
  rw [h1]
  dsimp only
  obtain ⟨o2, l2, h2⟩ := epCalls_quiet handlers hq (onCallKwargs f.params args kwargs) ⟨o1, s.world, s.log⟩
  rw [h2]
  dsimp only
  rcases hr : f.run args kwargs s.world with ⟨e | v, w⟩
  · dsimp only
    by_cases he : isException e = true
    · rw [if_pos he]
      obtain ⟨o3, h3⟩ := epErrors_log handlers hq e ⟨o2, w, l2 ++ [.run args kwargs]⟩
      rw [h3]
      exact ⟨rfl, rfl⟩
    · rw [if_neg he]
      exact ⟨rfl, rfl⟩
  · dsimp only
    obtain ⟨o3, h3⟩ := epReturns_log handlers hq v ⟨o2, w, l2 ++ [.run args kwargs]⟩
    rw [h3]
    exact ⟨rfl, rfl⟩

/-- Such handlers are told, in the order in which they are registered, the arguments by name before the call, and after it the value
or the error, each exactly once. Missing: interrupts, which are not reported, and what `*args` collects. -/
theorem C71_told_partial (isException : E → Bool) (f : EpFun R E W) (hnames : (f.params.map EpParam.name).Nodup)
    (handlers : List (EpHandler R E H W)) (hq : ∀ h ∈ handlers, Quiet h) (hr : ∀ h ∈ handlers, OnlyReads h) (args : List R)
    (kwargs : List (String × R)) (s : EpState R E H W) :
    ∃ d, NamesArguments f.params args kwargs d ∧
      (epWrapper isException f handlers args kwargs s).2.log = s.log ++ ((handlers.map fun h => .onCall h.id d) ++ [.run args kwargs] ++
        toldAfter isException (handlers.map (·.id)) (f.run args kwargs s.world).1) := by
  refine ⟨onCallKwargs f.params args kwargs, onCallKwargs_names f.params hnames args kwargs, ?_⟩
  unfold epWrapper
  dsimp only
  obtain ⟨o1, h1⟩ := epCreate_quiet handlers hq s
  rw [h1]
  dsimp only
  obtain ⟨o2, h2⟩ := epCalls_log handlers hq hr (onCallKwargs f.params args kwargs) ⟨o1, s.world, s.log⟩
  rw [h2]
  dsimp only
  rcases hrun : f.run args kwargs s.world with ⟨e | v, w⟩
  · dsimp only
    by_cases he : isException e = true
    · rw [if_pos he]
      obtain ⟨o3, h3⟩ := epErrors_log handlers hq e
        ⟨o2, w, s.log ++ (handlers.map fun h => .onCall h.id (onCallKwargs f.params args kwargs)) ++ [.run args kwargs]⟩
      rw [h3]
      simp [toldAfter, he]
    · rw [if_neg he]
      simp [toldAfter, he]
  · dsimp only
    obtain ⟨o3, h3⟩ := epReturns_log handlers hq v
        ⟨o2, w, s.log ++ (handlers.map fun h => .onCall h.id (onCallKwargs f.params args kwargs)) ++ [.run args kwargs]⟩
    rw [h3]
    simp [toldAfter]

/-- Whatever the handlers do: the function is called at most once, with the arguments of the call, and a value that is returned is the
value the function has returned. -/
theorem C71_never_made_up (isException : E → Bool) (f : EpFun R E W) (handlers : List (EpHandler R E H W)) (args : List R)
    (kwargs : List (String × R)) (s : EpState R E H W) :
    ∃ l, (epWrapper isException f handlers args kwargs s).2.log = s.log ++ l ∧ (epRuns l = [] ∨ epRuns l = [(args, kwargs)]) ∧
      ∀ v, (epWrapper isException f handlers args kwargs s).1 = .ok v → epRuns l = [(args, kwargs)] ∧ ∃ w, (f.run args kwargs w).1 = .ok v := by
  unfold epWrapper
  dsimp only
  have h1 := epCreate_runs handlers s
  rcases e1 : epCreate handlers s with ⟨e | u, s1⟩
  · rw [e1] at h1
    exact ⟨[], by simpa using h1, .inl rfl, by simp⟩
  rw [e1] at h1
  dsimp only at h1 ⊢
  obtain ⟨l2, h2, h2r⟩ := epCalls_runs handlers (onCallKwargs f.params args kwargs) s1
  rcases e2 : epCalls handlers (onCallKwargs f.params args kwargs) s1 with ⟨e | u, s2⟩
  · rw [e2] at h2
    exact ⟨l2, by rw [← h1]; exact h2, .inl h2r, by simp⟩
  rw [e2] at h2
  dsimp only at h2 ⊢
  have happ : ∀ l : List (EpEvent R E), epRuns l = [] → epRuns (l2 ++ [.run args kwargs] ++ l) = [(args, kwargs)] := by
    intro l hl
    simp only [epRuns, List.filterMap_append] at *
    rw [h2r, hl]
    rfl
  rcases e3 : f.run args kwargs s2.world with ⟨e | v, w⟩
  · dsimp only
    by_cases he : isException e = true
    · rw [if_pos he]
      obtain ⟨l4, h4, h4r⟩ := epErrors_runs handlers e ⟨s2.outside, w, s2.log ++ [.run args kwargs]⟩
      rcases e4 : epErrors handlers e ⟨s2.outside, w, s2.log ++ [.run args kwargs]⟩ with ⟨e' | u, s4⟩
      · rw [e4] at h4 ⊢
        dsimp only at h4 ⊢
        refine ⟨l2 ++ [.run args kwargs] ++ l4, ?_, .inr (happ l4 h4r), fun _ hv => (by cases hv)⟩
        simp only [h4, h2, h1, List.append_assoc]
      · rw [e4] at h4 ⊢
        dsimp only at h4 ⊢
        refine ⟨l2 ++ [.run args kwargs] ++ l4, ?_, .inr (happ l4 h4r), fun _ hv => (by cases hv)⟩
        simp only [h4, h2, h1, List.append_assoc]
    · rw [if_neg he]
      refine ⟨l2 ++ [.run args kwargs] ++ [], ?_, .inr (happ [] rfl), fun _ hv => (by cases hv)⟩
      simp only [h2, h1, List.append_assoc, List.append_nil]
  · dsimp only
    obtain ⟨l4, h4, h4r⟩ := epReturns_runs handlers v ⟨s2.outside, w, s2.log ++ [.run args kwargs]⟩
    rcases e4 : epReturns handlers v ⟨s2.outside, w, s2.log ++ [.run args kwargs]⟩ with ⟨e' | u, s4⟩
    · rw [e4] at h4 ⊢
      dsimp only at h4 ⊢
      refine ⟨l2 ++ [.run args kwargs] ++ l4, ?_, .inr (happ l4 h4r), fun _ hv => (by cases hv)⟩
      simp only [h4, h2, h1, List.append_assoc]
    · rw [e4] at h4 ⊢
      dsimp only at h4 ⊢
      refine ⟨l2 ++ [.run args kwargs] ++ l4, ?_, .inr (happ l4 h4r), ?_⟩
      · simp only [h4, h2, h1, List.append_assoc]
      · intro v' hv
        simp only [Except.ok.injEq] at hv
        subst hv
        exact ⟨happ l4 h4r, s2.world, by rw [e3]⟩

namespace EntryPointExample

/-- A handler that counts its calls and raises exception 9 where told to. -/
def watcher (id : Nat) (failCall failReturn failError : Bool) : EpHandler Nat Nat Nat (List Nat) where
  id := id
  create := fun (o, w) => (.ok (), o, w)
  onCall := fun d (o, w) => if failCall then (.error 9, o, w) else (.ok d, o + 1, w)
  onReturn := fun _ (o, w) => if failReturn then (.error 9, o, w) else (.ok (), o + 1, w)
  onError := fun _ (o, w) => if failError then (.error 9, o, w) else (.ok (), o + 1, w)

/-- `dfs(entityset, target_entity)`, which writes its arguments down and returns 100; it fails with 5 on entity set 0 and is
interrupted (exception 6) on entity set 7. -/
def search : EpFun Nat Nat (List Nat) where
  params := [⟨"entityset", false⟩, ⟨"target_entity", false⟩]
  run := fun args kw w => if args.head? = some 0 then (.error 5, w) else if args.head? = some 7 then (.error 6, w)
    else (.ok 100, w ++ args ++ kw.map Prod.snd)

def empty : EpState Nat Nat Nat (List Nat) := ⟨0, [], []⟩

theorem quiet (id : Nat) : Quiet (watcher id false false false) where
  create := fun o _ => ⟨o, rfl⟩
  call := fun d o _ => ⟨d, o + 1, rfl⟩
  returned := fun _ o _ => ⟨o + 1, rfl⟩
  failed := fun _ o _ => ⟨o + 1, rfl⟩

theorem reads (id : Nat) : OnlyReads (watcher id false false false) := by
  intro d d' o w o' w' h
  simp only [watcher, Bool.false_eq_true, if_false, Prod.mk.injEq, Except.ok.injEq] at h
  exact h.1.symm

end EntryPointExample

open EntryPointExample in
/-- The hypotheses of `C71_transparent_partial` and `C71_told_partial` are met by two handlers, and this is what they are told. -/
example : (∀ h ∈ [watcher 1 false false false, watcher 2 false false false], Quiet h ∧ OnlyReads h) ∧
    (search.params.map EpParam.name).Nodup ∧
    epWrapper (· ≠ 6) search [watcher 1 false false false, watcher 2 false false false] [3] [("target_entity", 4)] EntryPointExample.empty =
      (.ok 100, ⟨4, [3, 4], [.onCall 1 [("target_entity", 4), ("entityset", 3)], .onCall 2 [("target_entity", 4), ("entityset", 3)],
        .run [3] [("target_entity", 4)], .onReturn 1 100, .onReturn 2 100]⟩) :=
  ⟨by
    intro h hh
    simp only [List.mem_cons, List.not_mem_nil, or_false] at hh
    rcases hh with rfl | rfl
    · exact ⟨quiet 1, reads 1⟩
    · exact ⟨quiet 2, reads 2⟩, by decide, rfl⟩

open EntryPointExample in
/-- A handler whose `on_call` raises stops the call: the function does not run, although it would succeed. -/
theorem C71_on_call_violated :
    (search.run [3] [] []).1 = .ok 100 ∧
    epWrapper (· ≠ 6) search [watcher 1 false false false, watcher 2 true false false] [3] [] EntryPointExample.empty =
      (.error 9, ⟨1, [], [.onCall 1 [("entityset", 3)], .onCall 2 [("entityset", 3)]]⟩) := ⟨rfl, rfl⟩

open EntryPointExample in
/-- A handler whose `on_return` raises loses the result of a call that has succeeded, and later handlers are not told. -/
theorem C71_on_return_violated :
    epWrapper (· ≠ 6) search [watcher 1 false true false, watcher 2 false false false] [3] [] EntryPointExample.empty =
      (.error 9, ⟨2, [3], [.onCall 1 [("entityset", 3)], .onCall 2 [("entityset", 3)], .run [3] [], .onReturn 1 100]⟩) := rfl

open EntryPointExample in
/-- A handler whose `on_error` raises replaces the exception of the function. -/
theorem C71_on_error_violated :
    (search.run [0] [] []).1 = .error 5 ∧
    (epWrapper (· ≠ 6) search [watcher 1 false false true] [0] [] EntryPointExample.empty).1 = .error 9 := ⟨rfl, rfl⟩

open EntryPointExample in
/-- Handlers are not told how an interrupted call ended. -/
theorem C71_interrupt_violated :
    epWrapper (· ≠ 6) search [watcher 1 false false false] [7] [] EntryPointExample.empty =
      (.error 6, ⟨1, [], [.onCall 1 [("entityset", 7)], .run [7] []]⟩) := rfl

open EntryPointExample in
/-- Of what `*args` collects the handlers see the first object only. -/
theorem C71_star_violated :
    (epWrapper (· ≠ 6) { search with params := [⟨"tables", true⟩] } [watcher 1 false false false] [3, 4, 5] [] EntryPointExample.empty).2.log =
      [.onCall 1 [("tables", 3)], .run [3, 4, 5] [], .onReturn 1 100] := rfl

end FT
