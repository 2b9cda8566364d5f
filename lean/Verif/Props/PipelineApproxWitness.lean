import Verif.Props.PipelineApprox
import Verif.Props.PipelineWitness
import Verif.Props.DfsApproxWitness
/-! # C82 with `approximate`: a concrete case -/
namespace FT
open Spec
namespace PipelineApproxExample
open CalcExample (row)
open DfsExample (lang eq)
open DfsMatrixExample (up1 up2 sum reading)
open PipelineExample (var classes)
open DfsApproxExample (dKey dValue dOwn dTotal dUp args span bin bins)

def customers : Entity :=
  { id := "customers", index := "id", timeIndex := none, secondary := [], created := none, vars := [var "id" "index"]
    df := { cols := ["id"], rows := [row [("id", .num 1)], row [("id", .num 2)]], dtype := fun _ => "int64" }, lti := none }
def sessions : Entity :=
  { id := "sessions", index := "sid", timeIndex := none, secondary := [], created := none, vars := [var "sid" "index", var "customer_id" "id"]
    df := { cols := ["sid", "customer_id"], rows := [row [("sid", .num 10), ("customer_id", .num 1)], row [("sid", .num 11), ("customer_id", .num 1)]]
            dtype := fun _ => "int64" }, lti := none }

/-- What is in the log up to time 5000002. -/
def known : List Row :=
  [row [("lid", .num 100), ("session_id", .num 10), ("time", .num 1), ("value", .num 5)],
   row [("lid", .num 101), ("session_id", .num 11), ("time", .num 5000002), ("value", .num 7)]]

/-- One of two later entries. -/
def later (b : Bool) : Row :=
  if b then row [("lid", .num 102), ("session_id", .num 11), ("time", .num 5000009), ("value", .num 100)]
  else row [("lid", .num 103), ("session_id", .num 10), ("time", .num 9000000), ("value", .num (-4))]

def log (b : Bool) : Entity :=
  { id := "log", index := "lid", timeIndex := some "time", secondary := [], created := none
    vars := [var "lid" "index", var "session_id" "id", var "time" "datetime_time_index", var "value" "numeric"]
    df := { cols := ["lid", "session_id", "time", "value"], rows := known ++ [later b], dtype := fun _ => "int64" }, lti := none }

def es (b : Bool) : ESet := { entities := [customers, sessions, log b], rels := [up1, up2], timeType := some .datetime, cache := none }

abbrev env (b : Bool) : Env := calcEnv classes (es b) PipelineExample.env
abbrev ents (b : Bool) : List DEnt := (es b).entities.map (synthEnt classes)

def cut : List CutRow := [⟨.num 11, some 5000009, []⟩, ⟨.num 11, some 5000003, []⟩, ⟨.num 10, some 4, []⟩]
def call : CfmArgs :=
  { env := PipelineExample.env, features := [], cutoff := .table [] cut, instanceIds := none, approximate := some span, chunkSize := none,
    exec := .serial, inIndex := true, now := 100, idLe := fun _ _ => true }

theorem schema : SameSchema (es true) (es false) := ⟨rfl, rfl⟩

theorem keysKnown : KeysNotSecondary (es true) := by
  have none : ∀ x ∈ (es true).entities, x.secondary = [] := by
    intro x hx
    simp only [es, List.mem_cons, List.not_mem_nil, or_false] at hx
    rcases hx with rfl | rfl | rfl <;> rfl
  refine ⟨fun x hx => ?_, fun x hx s hs => ?_, fun r _ x hx _ s hs => ?_, fun r _ x hx _ s hs => ?_⟩
  · rw [none x hx]; exact List.Pairwise.nil
  all_goals rw [none x hx] at hs; cases hs

theorem entC {b : Bool} {x : Ent} (h : (env b).ent "customers" = some x) : x = calcEnt customers := by
  have : (env b).ent "customers" = some (calcEnt customers) := rfl
  rw [this] at h; exact (Option.some.inj h).symm
theorem entS {b : Bool} {x : Ent} (h : (env b).ent "sessions" = some x) : x = calcEnt sessions := by
  have : (env b).ent "sessions" = some (calcEnt sessions) := rfl
  rw [this] at h; exact (Option.some.inj h).symm
theorem entL {b : Bool} {x : Ent} (h : (env b).ent "log" = some x) : x = calcEnt (log b) := by
  have : (env b).ent "log" = some (calcEnt (log b)) := rfl
  rw [this] at h; exact (Option.some.inj h).symm

theorem customersOk (b : Bool) : EntityOk (env b) "customers" where
  there := rfl
  indexKey := by cases b <;> decide
  timeKey := by intro x ti h ht; rw [entC h] at ht; cases ht
  keys := by intro x h; rw [entC h]; cases b <;> decide
  distinct := by intro x h; rw [entC h]; decide
  present := by intro x h; rw [entC h]; decide
  notSecondary := by intro x h; rw [entC h]; intro s hs; cases hs

theorem sessionsOk (b : Bool) : EntityOk (env b) "sessions" where
  there := rfl
  indexKey := by cases b <;> decide
  timeKey := by intro x ti h ht; rw [entS h] at ht; cases ht
  keys := by intro x h; rw [entS h]; cases b <;> decide
  distinct := by intro x h; rw [entS h]; decide
  present := by intro x h; rw [entS h]; decide
  notSecondary := by intro x h; rw [entS h]; intro s hs; cases hs

theorem logOk (b : Bool) : EntityOk (env b) "log" where
  there := rfl
  indexKey := by cases b <;> decide
  timeKey := by intro x ti h ht; rw [entL h] at ht; cases ht; cases b <;> decide
  keys := by intro x h; rw [entL h]; cases b <;> decide
  distinct := by intro x h; rw [entL h]; cases b <;> decide
  present := by intro x h; rw [entL h]; cases b <;> decide
  notSecondary := by intro x h; rw [entL h]; intro s hs; cases hs

theorem dataFor (b : Bool) : DataFor (env b) (ents b) where
  window := rfl
  entity := by
    intro d hd
    simp only [ents, es, List.map_cons, List.map_nil, List.mem_cons, List.not_mem_nil, or_false] at hd
    rcases hd with rfl | rfl | rfl
    · exact customersOk b
    · exact sessionsOk b
    · exact logOk b
  column := by
    intro d hd v hv
    simp only [ents, es, List.map_cons, List.map_nil, List.mem_cons, List.not_mem_nil, or_false] at hd
    rcases hd with rfl | rfl | rfl
    · simp only [synthEnt, customers, List.map_cons, List.map_nil, List.mem_cons, List.not_mem_nil, or_false] at hv
      subst hv
      exact ⟨rfl, fun x h => by rw [entC h]; decide⟩
    · simp only [synthEnt, sessions, List.map_cons, List.map_nil, List.mem_cons, List.not_mem_nil, or_false] at hv
      rcases hv with rfl | rfl <;> exact ⟨rfl, fun x h => by rw [entS h]; decide⟩
    · simp only [synthEnt, log, List.map_cons, List.map_nil, List.mem_cons, List.not_mem_nil, or_false] at hv
      rcases hv with rfl | rfl | rfl | rfl <;> exact ⟨rfl, fun x h => by rw [entL h]; cases b <;> decide⟩
  related := by
    intro r hr
    have hr : r ∈ [up1, up2] := hr
    simp only [List.mem_cons, List.not_mem_nil, or_false] at hr
    rcases hr with rfl | rfl
    · exact ⟨customersOk b, sessionsOk b, by cases b <;> decide, by cases b <;> decide, by cases b <;> decide⟩
    · exact ⟨sessionsOk b, logOk b, by cases b <;> decide, by cases b <;> decide, by cases b <;> decide⟩
  oneLink := by cases b <;> decide

set_option maxRecDepth 10000 in
theorem built : dfsFeaturesOn lang eq classes (es true) args = .ok [dKey, dOwn, dUp] := by rfl

theorem seedsComputable (b : Bool) : SeedsComputable lang (env b) (args.seeds.map (readFeat reading lang [up1, up2])) where
  whole := by intro s hs; cases hs
  wellFormed := by rintro g ⟨_, h, _⟩; cases h
  direct := by rintro g q ⟨_, h, _⟩; cases h

theorem keyCols : (env true).keyCols = DfsMatrixExample.env.keyCols := by
  funext e
  have hk : ∀ x : Entity, x ∈ (es true).entities → x.id = "customers" ∨ x.id = "sessions" ∨ x.id = "log" := by
    intro x hx
    simp only [es, List.mem_cons, List.not_mem_nil, or_false] at hx
    rcases hx with rfl | rfl | rfl <;> simp [customers, sessions, log]
  by_cases h1 : e = "customers"
  · subst h1; rfl
  · by_cases h2 : e = "sessions"
    · subst h2; rfl
    · by_cases h3 : e = "log"
      · subst h3; rfl
      · have hn : (es true).get? e = none := by
          cases h : (es true).get? e with
          | none => rfl
          | some x =>
            obtain ⟨hm, hid⟩ := get?_mem h
            rcases hk x hm with h | h | h <;> (rw [h] at hid; first | exact absurd hid.symm h1 | exact absurd hid.symm h2 | exact absurd hid.symm h3)
        simp [env, calcEnv, hn, DfsMatrixExample.env, h1, h2, h3]

theorem namesApart : NamesApart (env true) DfsApproxExample.targets where
  identify := DfsApproxExample.namesApart.identify
  columns := DfsApproxExample.namesApart.columns
  keys := by rw [keyCols]; exact DfsApproxExample.namesApart.keys
  paths := DfsApproxExample.namesApart.paths
  linkKeys := by rw [keyCols]; exact DfsApproxExample.namesApart.linkKeys
  linkFeatures := DfsApproxExample.namesApart.linkFeatures

theorem canApproximate : CanApproximate (env true) DfsApproxExample.targets where
  full := DfsApproxExample.canApproximate.full
  links := by
    rintro p g h x hx
    have := DfsApproxExample.approximated_path h
    subst this
    simp only [List.mem_singleton] at hx
    subst hx
    decide

open Classical in
theorem same (t : Int) (ht : t < 5000009) (ht' : 5000002 ≤ t ∨ t = 5000000) : SameBefore PipelineExample.env (es true) (es false) t := by
  have vis : ∀ ent : Ent, ent.timeIndex = some "time" →
      (fun r => decide (Visible { PipelineExample.env with timeLast := t } ent r)) = fun r => (r "time").le t := by
    intro ent h
    funext r
    have : visB { PipelineExample.env with timeLast := t } ent r = (r "time").le t := by
      simp [visB, beforeB, windowB, h, PipelineExample.env, Window.start?]
    rw [← this, Bool.eq_iff_iff, visB_iff, decide_eq_true_eq]
  have diag : ∀ l : List Row, l = (l.map fun r => (r, r)).map Prod.fst ∧ l = (l.map fun r => (r, r)).map Prod.snd := by
    intro l; simp [Function.comp_def]
  have refl : ∀ x : Ent, SameAt { PipelineExample.env with timeLast := t } (some x) (some x) := by
    intro x
    refine .inr ⟨x, x, rfl, rfl, rfl, rfl, rfl, rfl, _, (diag _).1, (diag _).2, ?_⟩
    intro pr hpr c
    obtain ⟨r, _, rfl⟩ := List.mem_map.mp hpr
    exact ⟨Iff.rfl, fun _ => rfl⟩
  intro x
  by_cases h1 : x = "customers"
  · subst h1; exact refl (calcEnt customers)
  · by_cases h2 : x = "sessions"
    · subst h2; exact refl (calcEnt sessions)
    · by_cases h3 : x = "log"
      · subst h3
        have hlate : ∀ b, (later b "time").le t = false := by
          intro b
          cases b
          · show decide (9000000 ≤ t) = false; simp; omega
          · show decide (5000009 ≤ t) = false; simp; omega
        refine .inr ⟨_, _, rfl, rfl, rfl, rfl, rfl, rfl, (known.filter fun r => (r "time").le t).map fun r => (r, r), ?_, ?_, ?_⟩
        · rw [vis _ rfl]
          show (known ++ [later true]).filter _ = _
          rw [List.filter_append]; simp [hlate, Function.comp_def]
        · rw [vis _ rfl]
          show (known ++ [later false]).filter _ = _
          rw [List.filter_append]; simp [hlate, Function.comp_def]
        · intro pr hpr c
          obtain ⟨r, _, rfl⟩ := List.mem_map.mp hpr
          exact ⟨Iff.rfl, fun _ => rfl⟩
      · left
        have h1' : ("customers" == x) = false := by simpa using fun h => h1 h.symm
        have h2' : ("sessions" == x) = false := by simpa using fun h => h2 h.symm
        have h3' : ("log" == x) = false := by simpa using fun h => h3 h.symm
        constructor <;> simp [es, customers, sessions, log, h1', h2', h3']

end PipelineApproxExample

open PipelineApproxExample DfsApproxExample in
/-- The hypotheses hold for a concrete call: the row of time 5000003 is the same for the two logs that differ from time 5000009 on. -/
example : ∃ m m', dfsOn DfsExample.lang DfsExample.eq PipelineExample.classes DfsMatrixExample.reading (es true) args PipelineApproxExample.call = .ok (m, [dKey, dOwn, dUp]) ∧
    dfsOn DfsExample.lang DfsExample.eq PipelineExample.classes DfsMatrixExample.reading (es false) args PipelineApproxExample.call = .ok (m', [dKey, dOwn, dUp]) ∧
    m.rows[1]? = m'.rows[1]? := by
  obtain ⟨m, m', h1, h2, _, h3⟩ := C82_approximate_partial DfsExample.lang DfsExample.eq PipelineExample.classes DfsMatrixExample.reading (es true) (es false)
    schema keysKnown DfsExample.lang_perm args (by intro s hs; cases hs) PipelineApproxExample.call [] PipelineApproxExample.cut rfl span rfl bin bins
    ⟨⟨.num 11, some 5000009, []⟩, by simp [PipelineApproxExample.cut], by simp⟩ (by decide) (by decide) primsOk (by intro s hs; cases hs) trivial
    (dataFor true) (dataFor false) (PipelineApproxExample.seedsComputable true) (PipelineApproxExample.seedsComputable false) _ PipelineApproxExample.built (by simp)
    PipelineApproxExample.namesApart slicesLocal conditionsApart (by decide) notOnly PipelineApproxExample.canApproximate 5000003
    (same _ (by decide) (by decide)) (same _ (by decide) (by decide))
  exact ⟨m, m', h1, h2, h3 1 _ rfl rfl⟩

open PipelineApproxExample DfsApproxExample in
/-- What the rows are, and that rows of later times differ. -/
example : (PipelineExample.rowsOf (dfsOn DfsExample.lang DfsExample.eq PipelineExample.classes DfsMatrixExample.reading (es true) args PipelineApproxExample.call),
      PipelineExample.rowsOf (dfsOn DfsExample.lang DfsExample.eq PipelineExample.classes DfsMatrixExample.reading (es false) args PipelineApproxExample.call)) =
    (some (["customer_id", "sum(log.value)", "customers.sum(sessions.log.value)"],
      [[.num 1, .num 107, .num 5], [.num 1, .num 7, .num 5], [.num 1, .num 5, .null]]),
     some (["customer_id", "sum(log.value)", "customers.sum(sessions.log.value)"],
      [[.num 1, .num 7, .num 5], [.num 1, .num 7, .num 5], [.num 1, .num 5, .null]])) := by
  decide +kernel

end FT
