import Verif.Lemmas.Run
import Verif.Lemmas.NoLeak
import Verif.Lemmas.CalcExample2
/-!
# C24–C30: what the calculator computes

`Spec.meaning` (in `Spec/Calculator.lean`) is the compositional definition of a feature over the data visible at the cutoff
(`Spec.worldOf`); `Spec.answer` is the row of the result for one instance.  `Spec.Regular` collects the conditions under
which the code computes it; the conditions that the feature constructors do not enforce are the findings of `DESIGN.md`.
-/
namespace FT
open Spec

/-- C24. For every regular computation, every non-empty list of distinct instances, every cutoff and every primitive, `run`
succeeds and every value is the one given by the definition of the feature over the visible data. -/
theorem C24_values_partial (env : Env) (targets : List Feat) (e : String) (R : Regular env targets e) (ids : List Val)
    (hne : ids ≠ []) (hd : ids.Nodup) :
    runCalc env targets (Trie.new []) (Trie.new none) e ids =
      .ok (ids.map fun id => (id, if id ∈ (worldOf env).ids e then targets.flatMap fun f => meaning (worldOf env) f id
        else targets.flatMap fun f => f.names.map fun _ => f.dflt)) := by
  rw [run_ok R ids hne]
  split
  · rfl
  · rw [if_pos (hd.sublist List.filter_sublist), (dedup_eq_self ids).mpr hd]
    rfl

open Classical in
/-- C24. The visible data: exactly the rows before the cutoff and inside the window, in the order of the table, with
exactly the cells not yet known left out. -/
theorem C24_visible_data (env : Env) (e : String) (ent : Ent) (he : env.ent e = some ent) (hs : SecondaryApart ent)
    (hw : env.window.all Window.hasNoObservations = true) :
    ∃ shown : Row → Row, (∀ r, ShowsRow ent (some env.timeLast) r (shown r)) ∧
      visRows env e = (ent.df.rows.filter fun r => decide (Visible env ent r)).map shown := by
  refine ⟨shown env ent, maskAll_spec ent _ ((secondaryIndependent_iff _).mpr hs), ?_⟩
  rw [visRows_eq env e ent he hw]
  congr 1
  apply List.filter_congr
  intro r _
  rw [Bool.eq_iff_iff, visB_iff, decide_eq_true_eq]

example : Regular CalcExample.env CalcExample.targets "sessions" := CalcExample.regular

/-- The example has a direct feature of an aggregation, a transform, a session after the cutoff and an unknown id. -/
example : runCalc CalcExample.env CalcExample.targets (Trie.new []) (Trie.new none) "sessions" [.num 12, .num 10, .num 13, .num 99] =
    .ok [(.num 12, [.num 9, .num (-9)]), (.num 10, [.num 12, .num (-5)]), (.num 13, [.null, .null]), (.num 99, [.null, .null])] := by
  rw [C24_values_partial _ _ _ CalcExample.regular _ (by decide) (by decide)]
  decide

/-- C25. If two entity sets show the same data at the cutoff, the results are the same, for every list of features (regular
or not), every approximation, all precalculated values, all instances; errors included. -/
theorem C25_no_leak_partial (env : Env) (ent' : String → Option Ent) (targets : List Feat) (approx : ATrie) (pre : PTrie)
    (e : String) (ids : List Val) (hsame : ∀ x, SameAt env (env.ent x) (ent' x))
    (hsec : ∀ x ent, env.ent x = some ent → SecondaryApart ent) (hkey : KeysKnown env targets e) :
    runCalc { env with ent := ent' } targets approx pre e ids = runCalc env targets approx pre e ids :=
  runCalc_same env ent' targets approx pre e ids hsame hsec hkey


/-- A session after the cutoff may change at will. -/
def CalcExample.sessions' : Ent :=
  { CalcExample.sessions with df :=
    { cols := ["sid", "customer_id", "time", "amount"]
      rows := [CalcExample.row [("sid", .num 14), ("customer_id", .num 1), ("time", .num 6), ("amount", .num 50)],
               CalcExample.row [("sid", .num 10), ("customer_id", .num 1), ("time", .num 0), ("amount", .num 5)],
               CalcExample.row [("sid", .num 11), ("customer_id", .num 1), ("time", .num 1), ("amount", .num 7)],
               CalcExample.row [("sid", .num 12), ("customer_id", .num 2), ("time", .num 2), ("amount", .num 9)]] } }

/-- The row's time is a number no later than the cutoff of the example. -/
theorem CalcExample.visible_iff (ent : Ent) (h : ent.timeIndex = some "time") (r : Row) :
    visB CalcExample.env ent r = (r "time").le 5 := by
  simp [visB, beforeB, windowB, h, CalcExample.env, Window.start?]

open Classical in
example : SameShown CalcExample.env CalcExample.sessions CalcExample.sessions' where
  index := rfl
  timeIndex := rfl
  secondary := rfl
  cols := rfl
  rows := by
    refine ⟨(CalcExample.sessions.df.rows.take 3).map fun r => (r, r), ?_, ?_, ?_⟩
    · have : (fun r => decide (Visible CalcExample.env CalcExample.sessions r)) = fun r => (r "time").le 5 := by
        funext r
        rw [← CalcExample.visible_iff CalcExample.sessions rfl, Bool.eq_iff_iff, visB_iff, decide_eq_true_eq]
      rw [this]; rfl
    · have : (fun r => decide (Visible CalcExample.env CalcExample.sessions' r)) = fun r => (r "time").le 5 := by
        funext r
        rw [← CalcExample.visible_iff CalcExample.sessions' rfl, Bool.eq_iff_iff, visB_iff, decide_eq_true_eq]
      rw [this]; rfl
    · intro pr hpr c
      obtain ⟨r, _, rfl⟩ := List.mem_map.mp hpr
      exact ⟨Iff.rfl, fun _ => rfl⟩

/-- C26. The values of an instance do not depend on which other instances are asked for with it. -/
theorem C26_other_instances_partial (env : Env) (targets : List Feat) (e : String) (R : Regular env targets e)
    (ids ids' : List Val) (rows rows' : List (Val × List Val))
    (h : runCalc env targets (Trie.new []) (Trie.new none) e ids = .ok rows)
    (h' : runCalc env targets (Trie.new []) (Trie.new none) e ids' = .ok rows')
    (id : Val) (v v' : List Val) (hv : (id, v) ∈ rows) (hv' : (id, v') ∈ rows') : v = v' := by
  have key : ∀ (ids : List Val) (rows : List (Val × List Val)),
      runCalc env targets (Trie.new []) (Trie.new none) e ids = .ok rows → ∀ id v, (id, v) ∈ rows → v = answer (worldOf env) e targets id := by
    intro ids rows h id v hv
    have hne : ids ≠ [] := by rintro rfl; cases h
    rw [run_ok R ids hne] at h
    split at h
    · cases h
      obtain ⟨i, _, hi⟩ := List.mem_map.mp hv
      cases hi; rfl
    · split at h
      · cases h
        obtain ⟨i, _, hi⟩ := List.mem_map.mp hv
        cases hi; rfl
      · cases h
  rw [key ids rows h id v hv, key ids' rows' h' id v' hv']

/-- A regular computation and two runs of it that have an instance in common. -/
example : Spec.Regular CalcExample.env CalcExample.targets "sessions" ∧
    runCalc CalcExample.env CalcExample.targets (Trie.new []) (Trie.new none) "sessions" [.num 12, .num 10] =
      .ok [(.num 12, [.num 9, .num (-9)]), (.num 10, [.num 12, .num (-5)])] ∧
    runCalc CalcExample.env CalcExample.targets (Trie.new []) (Trie.new none) "sessions" [.num 10] =
      .ok [(.num 10, [.num 12, .num (-5)])] := ⟨CalcExample.regular, by decide, by decide⟩

/-- C26. Computing in two batches gives the same as computing at once. -/
theorem C26_split_partial (env : Env) (targets : List Feat) (e : String) (R : Regular env targets e)
    (a b : List Val) (ha : a ≠ []) (hb : b ≠ []) (hd : (a ++ b).Nodup) :
    ∃ ra rb, runCalc env targets (Trie.new []) (Trie.new none) e a = .ok ra ∧
      runCalc env targets (Trie.new []) (Trie.new none) e b = .ok rb ∧
      runCalc env targets (Trie.new []) (Trie.new none) e (a ++ b) = .ok (ra ++ rb) := by
  rw [List.nodup_append] at hd
  refine ⟨_, _, C24_values_partial env targets e R a ha hd.1, C24_values_partial env targets e R b hb hd.2.1, ?_⟩
  rw [C24_values_partial env targets e R (a ++ b) (by simp [ha]) (by rw [List.nodup_append]; exact hd), List.map_append]

/-- C27. One row for each requested instance, in the requested order; one value for each output of the requested features,
in order; the defaults for instances that are not visible. -/
theorem C27_rows_partial (env : Env) (targets : List Feat) (e : String) (R : Regular env targets e) (ids : List Val)
    (hne : ids ≠ []) (hd : ids.Nodup) :
    ∃ rows, runCalc env targets (Trie.new []) (Trie.new none) e ids = .ok rows ∧ rows.map Prod.fst = ids ∧
      (∀ row ∈ rows, row.2.length = (targets.flatMap Feat.names).length) ∧
      ∀ row ∈ rows, row.1 ∉ (worldOf env).ids e → row.2 = targets.flatMap fun f => f.names.map fun _ => f.dflt := by
  refine ⟨_, C24_values_partial env targets e R ids hne hd, ?_, ?_, ?_⟩
  · rw [List.map_map]
    exact List.map_id ids
  · intro row hrow
    obtain ⟨id, hid, rfl⟩ := List.mem_map.mp hrow
    have hlen : ∀ (l : List Feat) (g : Feat → List Val), (∀ f ∈ l, (g f).length = f.names.length) →
        (l.flatMap g).length = (l.flatMap Feat.names).length := by
      intro l g h
      induction l with
      | nil => rfl
      | cons a l ih =>
        simp only [List.flatMap_cons, List.length_append, h a (by simp), ih fun f hf => h f (by simp [hf])]
    simp only
    split
    · rename_i hv
      exact hlen _ _ fun f hf => meaning_length R f hf id hv
    · exact hlen _ _ fun f _ => by simp
  · intro row hrow hv
    obtain ⟨id, hid, rfl⟩ := List.mem_map.mp hrow
    simp only [if_neg hv]

/-- C27. Repeated ids: when some requested instance is visible and no unknown id is repeated, each id gets one row, at its
first position; when no requested instance is visible the repetitions stay; a repeated unknown id beside a visible one is a
`ValueError`. -/
theorem C27_repeated_ids (env : Env) (targets : List Feat) (e : String) (R : Regular env targets e) (ids : List Val) (hne : ids ≠ []) :
    ((∃ i ∈ ids, i ∈ (worldOf env).ids e) → (ids.filter fun i => i ∉ (worldOf env).ids e).Nodup →
      ∃ rows, runCalc env targets (Trie.new []) (Trie.new none) e ids = .ok rows ∧ rows.map Prod.fst = dedup ids) ∧
    ((∀ i ∈ ids, i ∉ (worldOf env).ids e) →
      ∃ rows, runCalc env targets (Trie.new []) (Trie.new none) e ids = .ok rows ∧ rows.map Prod.fst = ids) ∧
    ((∃ i ∈ ids, i ∈ (worldOf env).ids e) → ¬ (ids.filter fun i => i ∉ (worldOf env).ids e).Nodup →
      runCalc env targets (Trie.new []) (Trie.new none) e ids = .error .valueError) := by
  rw [run_ok R ids hne]
  refine ⟨?_, ?_, ?_⟩
  · rintro ⟨i, hi, hv⟩ hn
    rw [if_neg (fun h => h i hi hv), if_pos hn]
    exact ⟨_, rfl, by rw [List.map_map]; exact List.map_id _⟩
  · intro h
    rw [if_pos h]
    exact ⟨_, rfl, by rw [List.map_map]; exact List.map_id _⟩
  · rintro ⟨i, hi, hv⟩ hn
    rw [if_neg (fun h => h i hi hv), if_neg hn]

/-- C27 fails for repeated ids (found by the model): a repeated unknown id is an error, or is reported twice. -/
theorem C27_repeats_violated :
    runCalc CalcExample.env CalcExample.targets (Trie.new []) (Trie.new none) "sessions" [.num 10, .num 98, .num 98] = .error .valueError ∧
    (runCalc CalcExample.env CalcExample.targets (Trie.new []) (Trie.new none) "sessions" [.num 98, .num 98]).toOption.map (·.map Prod.fst) =
      some [.num 98, .num 98] := by
  constructor
  · rw [run_ok CalcExample.regular _ (by decide)]; decide
  · rw [run_ok CalcExample.regular _ (by decide)]; decide

/-- C27. No instances: the assertion fails. -/
theorem C27_no_instances (env : Env) (targets : List Feat) (approx : ATrie) (pre : PTrie) (e : String) :
    runCalc env targets approx pre e [] = .error .assertionError := rfl

/-- C28. An aggregation feature is the primitive applied to the base values of exactly the instances that are linked to the
instance, satisfy the condition and lie in the window (`use_previous`), in the order of the data; without such instances,
and for missing results, it is the default. -/
theorem C28_group_partial (env : Env) (f : Feat) (e : String) (R : Regular env [f] e) (path : List Relationship) (p : AggPrim)
    (prev : Option (Dict Int)) (u : Bool) (hk : f.kind = .agg path p prev u) (id : Val) (hv : id ∈ (worldOf env).ids e)
    (child : String) (hchild : path.getLast?.map Relationship.childE = some child) :
    ∃ members : List Val,
      runCalc env [f] (Trie.new []) (Trie.new none) e [id] = .ok [(id,
        if members = [] then f.names.map fun _ => f.dflt
        else (p.fn env.timeLast (f.bases.map fun b => members.map fun x => (meaning (worldOf env) b x).headD .null)).map fun v =>
          if v = .null then f.dflt else v)] ∧
      -- the instances below, in the order of the data
      let below := ((worldOf env).ids child).filter fun x =>
        (worldOf env).up path.reverse x = id ∧ ∀ c ∈ f.wh, (meaning (worldOf env) c x).headD .null = .bool true
      (prev = none → members = below) ∧
      (∀ n : Nat, prev = some [("o", (n : Int))] → 0 < n → members = below.drop (below.length - n)) ∧
      (∀ unit v ti, prev = some [(unit, v)] → unit ≠ "o" → (worldOf env).timeIndex child = some ti →
        members = below.filter fun x => (((worldOf env).cell child x ti).ge (env.minus env.timeLast [(unit, v)]))) := by
  obtain ⟨i, bs, wh⟩ := f
  have hk' : i.kind = .agg path p prev u := hk
  refine ⟨aggMembers (worldOf env) path prev (meanings (worldOf env) wh) child id, ?_, ?_⟩
  · rw [C24_values_partial env _ e R [id] (by simp) (by simp)]
    simp only [List.map_cons, List.map_nil, if_pos hv, List.flatMap_cons, List.flatMap_nil, List.append_nil]
    simp only [meaning, meaningStep, hk', hchild, Option.getD_some, meanings_eq_map]
    simp only [List.map_map]
    rfl
  · have hb : (((worldOf env).ids child).filter fun x => (worldOf env).up path.reverse x = id ∧ ∀ c ∈ meanings (worldOf env) wh, one c x = .bool true) =
        ((worldOf env).ids child).filter fun x => (worldOf env).up path.reverse x = id ∧ ∀ c ∈ wh, (meaning (worldOf env) c x).headD .null = .bool true := by
      apply List.filter_congr
      intro x _
      simp only [meanings_eq_map, List.mem_map, forall_exists_index, and_imp, forall_apply_eq_imp_iff₂, one]
    simp only [aggMembers, hb]
    refine ⟨?_, ?_, ?_⟩
    · rintro rfl; rfl
    · rintro n rfl hn
      have : obsCount [("o", (n : Int))] = some (n : Int) := rfl
      simp only [this, lastObs]
      rw [if_pos (by omega)]
      simp [Feat.wh]
    · rintro unit v ti rfl hu hti
      have : obsCount [(unit, v)] = none := by
        simp [obsCount, Dict.get?, Ne.symm hu]
      simp only [this, hti]
      rfl

example : Regular CalcExample.env [CalcExample.Agg.recent] "customers" := CalcExample.Agg.regular
/-- Sums of the sessions above 6 in the last four days: the session of 5 and the one after the cutoff do not count. -/
example : runCalc CalcExample.env [CalcExample.Agg.recent] (Trie.new []) (Trie.new none) "customers" [.num 1, .num 2, .num 3] =
    .ok [(.num 1, [.num 7]), (.num 2, [.num 9]), (.num 3, [.num 0])] := by
  decide

/-- C29. A direct feature has the base value of the parent whose index is the foreign key; the default when the key is
missing or dangling, and for missing values. -/
theorem C29_lookup_partial (env : Env) (f b : Feat) (e : String) (R : Regular env [f] e) (r : Relationship)
    (hk : f.kind = .direct r) (hb : f.bases = [b]) (id : Val) (hv : id ∈ (worldOf env).ids e) :
    runCalc env [f] (Trie.new []) (Trie.new none) e [id] = .ok [(id,
      if (worldOf env).cell e id r.childV ∈ (worldOf env).ids r.parentE then
        (meaning (worldOf env) b ((worldOf env).cell e id r.childV)).map fun v => if v = .null then f.dflt else v
      else f.names.map fun _ => f.dflt)] := by
  have hent := R.targetEntity f (by simp)
  obtain ⟨i, bs, wh⟩ := f
  have hk' : i.kind = .direct r := hk
  have hb' : bs = [b] := hb
  have hent' : i.entity = e := hent
  subst hb'
  rw [C24_values_partial env _ e R [id] (by simp) (by simp)]
  simp only [List.map_cons, List.map_nil, if_pos hv, List.flatMap_cons, List.flatMap_nil, List.append_nil]
  simp only [meaning, meaningStep, hk', meanings_eq_map, List.map_cons, hent']
  rfl

/-- C30. A group-by transform feature is the primitive applied to exactly the rows with the same group value, in the order
of the data; the default when the group value is missing, and for missing results. -/
theorem C30_within_group_partial (env : Env) (f g : Feat) (e : String) (R : Regular env [f] e) (p : TransPrim)
    (hk : f.kind = .groupby p) (hg : f.bases.getLast? = some g) (id : Val) (hv : id ∈ (worldOf env).ids e) :
    let w := worldOf env
    let group := fun x => (meaning w g x).headD .null
    let members := (w.ids e).filter fun x => group x = group id
    runCalc env [f] (Trie.new []) (Trie.new none) e [id] = .ok [(id,
      if group id = .null then f.names.map fun _ => f.dflt
      else (p.fn env.timeLast (f.bases.dropLast.map fun b => members.map fun x => (meaning w b x).headD .null)).map fun column =>
        let v := ((members.zip column).lookup id).getD .null
        if v = .null then f.dflt else v)] := by
  intro w group members
  have hent := R.targetEntity f (by simp)
  obtain ⟨i, bs, wh⟩ := f
  have hk' : i.kind = .groupby p := hk
  have hg' : bs.getLast? = some g := hg
  have hent' : i.entity = e := hent
  rw [C24_values_partial env _ e R [id] (by simp) (by simp)]
  simp only [List.map_cons, List.map_nil, if_pos hv, List.flatMap_cons, List.flatMap_nil, List.append_nil]
  have hlast : (bs.map (meaning (worldOf env))).getLast? = some (meaning (worldOf env) g) := by
    rw [List.getLast?_map, hg']; rfl
  simp only [meaning, meaningStep, hk', meanings_eq_map, hlast, hent', transOn, ← List.map_dropLast, List.map_map]
  rfl

example : Regular CalcExample.env [CalcExample.Group.byCustomer] "sessions" := CalcExample.Group.regular
/-- Running sums within each customer, also when only some sessions are asked for. -/
example : runCalc CalcExample.env [CalcExample.Group.byCustomer] (Trie.new []) (Trie.new none) "sessions" [.num 11, .num 12] =
    .ok [(.num 11, [.num 12]), (.num 12, [.num 9])] := by
  decide

end FT
