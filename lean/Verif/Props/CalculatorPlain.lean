import Verif.Lemmas.DfsMatrix
import Verif.Props.CalculatorRows
import Verif.Props.DfsMatrixWitness
/-!
# C24: plain conditions, and slices as targets

`C24_values_partial` assumes `Regular`, which speaks about the plan of the computation. Here the conditions are about the features, the
data and the names of columns only.
-/
namespace FT
open Spec

/-- C24. If the data have proper keys, every feature that is needed is well formed, and different columns have different names, then
`run` succeeds for every list of distinct instances and every value is the one given by the definition of the feature over the visible
data. -/
theorem C24_plain_partial (env : Env) (targets : List Feat) (e : String) (hE : EntityOk env e)
    (hw : env.window.all Window.hasNoObservations = true)
    (hwf : ∀ g, NeededBy targets g → WellFormed env g ∧ ∀ x ∈ g.path, x.2 ∈ env.rels)
    (ht : ∀ f ∈ targets, f.entity = e ∧ WholeFeature f)
    (hdirect : ∀ f r, NeededBy targets f → f.kind = .direct r → ∀ b ∈ f.bases, SingleOutput b)
    (hsame : ∀ f g r, NeededBy targets f → NeededBy targets g → f.kind = .direct r → g.kind = .direct r → f.bases = g.bases → f.name = g.name)
    (A : NamesApart env targets) (ids : List Val) (hne : ids ≠ []) (hd : ids.Nodup) :
    runCalc env targets (Trie.new []) (Trie.new none) e ids =
      .ok (ids.map fun id => (id, if id ∈ (worldOf env).ids e then targets.flatMap fun f => meaning (worldOf env) f id
        else targets.flatMap fun f => f.names.map fun _ => f.dflt)) :=
  C24_values_partial env targets e
    (regular_of_apart hE hw (fun g hg => (hwf g hg).1) (fun f hf => (ht f hf).2) (fun f hf => (ht f hf).1) (fun f hf => (hwf f hf).2) hdirect hsame A)
    ids hne hd

namespace CalcExample

/-- The example of `Lemmas/CalcExample.lean` meets the plain conditions: its only chains of relationships have one link. -/
theorem linkShort {c n : String} {chain : List Relationship} (h : LinkCol env.rels c n chain) : chain.length = 1 := by
  cases h with
  | key r hr => rfl
  | above r hr h' =>
    have h1 : r = rel := by simpa [env] using hr
    subst h1
    generalize hc : rel.parentE = c' at h'
    have h2 : c' = "customers" := hc.symm
    subst h2
    have aux : ∀ {c n chain}, LinkCol env.rels c n chain → c ≠ "customers" := by
      intro c n chain h
      cases h with
      | key r hr =>
        have h1 : r = rel := by simpa [env] using hr
        subst h1; decide
      | above r hr h' =>
        have h1 : r = rel := by simpa [env] using hr
        subst h1; decide
    exact absurd rfl (aux h')

theorem apart : NamesApart env targets where
  identify := regular.names
  columns := fun f g hf hg _ _ he hne n hn hn' => by
    rcases needed hf with rfl | rfl | rfl | rfl <;> rcases needed hg with rfl | rfl | rfl | rfl <;>
      first
      | exact absurd rfl hne
      | exact absurd he (by decide)
      | (rw [List.mem_singleton.mp hn] at hn'; exact absurd hn' (by decide))
  keys := fun f hf _ hk n hn => by
    rcases needed hf with rfl | rfl | rfl | rfl <;>
      first
      | (rw [List.mem_singleton.mp hn]; decide)
      | exact absurd rfl (hk "amount")
  paths := fun f g hf hg _ _ he hcl hp => by
    rcases needed hf with rfl | rfl | rfl | rfl <;> rcases needed hg with rfl | rfl | rfl | rfl <;>
      first
      | rfl
      | exact absurd he (by decide)
      | exact absurd hcl (by decide)
  linkKeys := fun c n chain h hl => by rw [linkShort h] at hl; omega
  linkFeatures := fun c n chain h hl => by rw [linkShort h] at hl; omega

end CalcExample

open CalcExample in
/-- The hypotheses hold for a direct feature of an aggregation together with a transform. -/
example : runCalc env targets (Trie.new []) (Trie.new none) "sessions" [.num 12, .num 10] =
    .ok ([Val.num 12, .num 10].map fun id => (id, if id ∈ (worldOf env).ids "sessions" then targets.flatMap fun f => meaning (worldOf env) f id
      else targets.flatMap fun f => f.names.map fun _ => f.dflt)) := by
  refine C24_plain_partial env targets "sessions" sessionsOk regular.window ?_ ?_ ?_ ?_ apart _ (by decide) (by decide)
  · intro g hg
    refine ⟨wf g hg, fun x hx => ?_⟩
    rcases needed hg with rfl | rfl | rfl | rfl
    · have : x = (true, rel) := by simpa [Feat.path, lookup, Feat.kind, Feat.info, Kind.path] using hx
      subst this; decide
    · cases hx
    · have : x = (false, rel) := by simpa [Feat.path, total, Feat.kind, Feat.info, Kind.path] using hx
      subst this; decide
    · cases hx
  · intro f hf
    exact ⟨regular.targetEntity f hf, regular.noSlice f hf⟩
  · intro f r hf hk b hb
    rcases needed hf with rfl | rfl | rfl | rfl <;> cases hk
    rw [show b = total from by simpa [lookup, Feat.bases] using hb]
    rfl
  · intro f g r hf hg hk hk' hb
    rcases needed hf with rfl | rfl | rfl | rfl <;> cases hk <;> rcases needed hg with rfl | rfl | rfl | rfl <;> cases hk'
    rfl

namespace CalcExample

/-- The direct feature by itself needs no more than the two features together. -/
theorem neededAlone {g : Feat} (h : NeededBy [lookup] g) : NeededBy targets g := by
  obtain ⟨f, hf, hn⟩ := h
  rw [List.mem_singleton.mp hf] at hn
  exact ⟨lookup, by simp [targets], hn⟩

theorem regularAlone : Regular env [lookup] "sessions" := by
  refine regular_of_apart sessionsOk regular.window (fun g hg => wf g (neededAlone hg)) ?_ ?_ ?_ ?_ ?_ ?_
  · intro f hf
    exact regular.noSlice f (by simp [targets, List.mem_singleton.mp hf])
  · intro f hf
    exact regular.targetEntity f (by simp [targets, List.mem_singleton.mp hf])
  · intro f hg x hx
    rcases needed (neededAlone hg) with rfl | rfl | rfl | rfl
    · have : x = (true, rel) := by simpa [Feat.path, lookup, Feat.kind, Feat.info, Kind.path] using hx
      subst this; decide
    · cases hx
    · have : x = (false, rel) := by simpa [Feat.path, total, Feat.kind, Feat.info, Kind.path] using hx
      subst this; decide
    · cases hx
  · intro f r hf hk b hb
    rcases needed (neededAlone hf) with rfl | rfl | rfl | rfl <;> cases hk
    rw [show b = total from by simpa [lookup, Feat.bases] using hb]
    rfl
  · intro f g r hf hg hk hk' hb
    rcases needed (neededAlone hf) with rfl | rfl | rfl | rfl <;> cases hk <;> rcases needed (neededAlone hg) with rfl | rfl | rfl | rfl <;> cases hk'
    rfl
  · exact {
      identify := fun f g hf hg => apart.identify f g (neededAlone hf) (neededAlone hg)
      columns := fun f g hf hg => apart.columns f g (neededAlone hf) (neededAlone hg)
      keys := fun f hf => apart.keys f (neededAlone hf)
      paths := fun f g hf hg => apart.paths f g (neededAlone hf) (neededAlone hg)
      linkKeys := apart.linkKeys
      linkFeatures := fun c n chain h hl => by rw [linkShort h] at hl; omega }

end CalcExample

open CalcExample in
/-- The hypotheses of `C29_lookup_partial` are met by the total of a customer, brought to a session of theirs. -/
example : runCalc env [lookup] (Trie.new []) (Trie.new none) "sessions" [.num 10] = .ok [(.num 10,
    if (worldOf env).cell "sessions" (.num 10) rel.childV ∈ (worldOf env).ids rel.parentE then
      (meaning (worldOf env) total ((worldOf env).cell "sessions" (.num 10) rel.childV)).map fun v => if v = .null then lookup.dflt else v
    else lookup.names.map fun _ => lookup.dflt)] :=
  C29_lookup_partial env lookup total "sessions" regularAlone rel rfl rfl (.num 10) (by decide)

namespace CalcExample

/-- First and last value. -/
def ends : AggPrim := { usesCalcTime := false, fn := fun _ args => [(args.headD []).headD .null, (args.headD []).getLast?.getD .null] }
def both : Feat := .mk { entity := "customers", name := "ENDS(sessions.amount)", names := ["ENDS(sessions.amount)[0]", "ENDS(sessions.amount)[1]"], dflt := .null, kind := .agg [rel] ends none true } [amount] []
/-- `both[0]` -/
def first : Feat := .mk { entity := "customers", name := "ENDS(sessions.amount)[0]", names := ["ENDS(sessions.amount)[0]"], dflt := .null, kind := .slice 0 } [both] []

/-- A transform of two outputs, and one of them. -/
def twice : TransPrim := { usesFull := false, usesCalcTime := false, fn := fun _ args => [args.headD [], (args.headD []).map fun v => .num (- numOf v)] }
def signs : Feat := .mk { entity := "sessions", name := "SIGNS(amount)", names := ["SIGNS(amount)[0]", "SIGNS(amount)[1]"], dflt := .null, kind := .trans twice } [amount] []
def second : Feat := .mk { entity := "sessions", name := "SIGNS(amount)[1]", names := ["SIGNS(amount)[1]"], dflt := .null, kind := .slice 1 } [signs] []

end CalcExample

open CalcExample in
/-- C24 fails for one output of a feature of several: asked for by itself it is an error, although the feature it is taken from can be
computed. For a transform there is no handler (`UnknownFeature`); for an aggregation the feature is put in the plan of the wrong entity
(`KeyError`). -/
theorem C24_slice_target_violated :
    (runCalc env [signs] (Trie.new []) (Trie.new none) "sessions" [.num 10] = .ok [(.num 10, [.num 5, .num (-5)])] ∧
      meaning (worldOf env) second (.num 10) = [.num (-5)] ∧
      runCalc env [second] (Trie.new []) (Trie.new none) "sessions" [.num 10] = .error .other ∧
      runCalc env [signs, second] (Trie.new []) (Trie.new none) "sessions" [.num 10] = .error .other) ∧
    (runCalc env [both] (Trie.new []) (Trie.new none) "customers" [.num 1] = .ok [(.num 1, [.num 5, .num 7])] ∧
      meaning (worldOf env) first (.num 1) = [.num 5] ∧
      runCalc env [first] (Trie.new []) (Trie.new none) "customers" [.num 1] = .error .keyError ∧
      runCalc env [both, first] (Trie.new []) (Trie.new none) "customers" [.num 1] = .error .keyError) := by
  decide

end FT
