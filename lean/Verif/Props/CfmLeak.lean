import Verif.Lemmas.CfmLeak
import Verif.Spec.CfmLeak
import Verif.Props.Cfm
import Verif.Props.Calculator
/-!
# C60: each row of the matrix only uses what is known at its cutoff

`Spec.SameAt env x y` (in `Spec/NoLeak.lean`) says that the data `x` and `y` of an entity show the same at the cutoff of `env`.
-/
namespace FT
open Spec

theorem Spec.SameUntil.run {a : CfmArgs} {e : String} {ent' : String → Option Ent} {t : Int} (h : SameUntil a e ent' t)
    (passCols : List String) (he : (⟨a.env, a.features, passCols, a.idLe⟩ : Call).entity = e) (ids : List Val) :
    let c : Call := ⟨a.env, a.features, passCols, a.idLe⟩
    runCalc ((c.withEnt ent').at t c.env.window) c.targets (Trie.new []) (Trie.new none) c.entity ids =
      runCalc (c.at t c.env.window) c.targets (Trie.new []) (Trie.new none) c.entity ids := by
  simp only [he]
  exact runCalc_same { a.env with timeLast := t } ent' a.features (Trie.new []) (Trie.new none) e ids h.same h.apart h.keys

/-- C60. If two data sets show the same at time `t`, then every row of the matrix with cutoff `t` is the same for both, for every
cutoff table, all features, chunk sizes and ways of execution (both calls returning a matrix). What the data is at other
times, where other rows of the table are computed, does not matter. -/
theorem C60_row_partial (a : CfmArgs) (f0 : Feat) (fs : List Feat) (hf : a.features = f0 :: fs) (passCols : List String) (cut : List CutRow)
    (hcut : a.cutoff = .table passCols cut) (happ : a.approximate = none) (ent' : String → Option Ent) (t : Int)
    (hsame : SameUntil a f0.entity ent' t) (m m' : Matrix) (hm : calculateFeatureMatrix a = .ok m)
    (hm' : calculateFeatureMatrix (withData a ent') = .ok m') :
    ∀ (i : Nat) r, cut[i]? = some r → r.time = some t → m.rows[i]? = m'.rows[i]? := by
  have hent : (⟨a.env, a.features, passCols, a.idLe⟩ : Call).entity = f0.entity := by simp [Call.entity, hf]
  have hagree := calculateExact_agree ⟨a.env, a.features, passCols, a.idLe⟩ ent' t
    (groupMatrix_agree ⟨a.env, a.features, passCols, a.idLe⟩ ent' t fun ids => hsame.run passCols hent ids)
  have hdrop : ∀ (x y : Matrix) (i : Nat), x.rows[i]? = y.rows[i]? → (dropTime a.inIndex x).rows[i]? = (dropTime a.inIndex y).rows[i]? := by
    intro x y i h
    unfold dropTime
    cases a.inIndex
    · simp only [Bool.false_eq_true, if_false, List.getElem?_map, h]
    · exact h
  have hne : a.features.isEmpty = false := by simp [hf]
  unfold calculateFeatureMatrix at hm hm'
  simp only [hne, hcut, cfmTable, happ, Bool.false_eq_true, if_false] at hm hm'
  split at hm
  · rename_i hd
    rw [if_pos hd] at hm'
    split at hm
    · cases hm
    · rename_i size hsize
      rw [hsize] at hm'
      simp only at hm'
      split at hm
      · cases hm
      · rename_i x hx
        split at hm'
        · cases hm'
        · rename_i y hy
          have hxy := execute_agree a.exec t size cut.length TRow.time (timed cut) _ _ hagree x y hx hy
          intro i r hr ht
          cases h1 : reindexTable (withPass (Call.featCols ⟨a.env, a.features, passCols, a.idLe⟩) passCols) cut x with
          | error e => rw [h1] at hm; cases hm
          | ok n =>
            have h2 : ∃ n', reindexTable (withPass (Call.featCols ⟨a.env, a.features, passCols, a.idLe⟩) passCols) cut y = .ok n' ∧ m' = dropTime a.inIndex n' := by
              cases h2 : reindexTable (withPass (Call.featCols ⟨a.env, a.features, passCols, a.idLe⟩) passCols) cut y with
              | error e =>
                have : reindexTable (withPass (Call.featCols ⟨{ a.env with ent := ent' }, a.features, passCols, a.idLe⟩) passCols) cut y = .error e := h2
                rw [this] at hm'; cases hm'
              | ok n' =>
                have : reindexTable (withPass (Call.featCols ⟨{ a.env with ent := ent' }, a.features, passCols, a.idLe⟩) passCols) cut y = .ok n' := h2
                rw [this] at hm'; cases hm'
                exact ⟨n', rfl, rfl⟩
            obtain ⟨n', h2, rfl⟩ := h2
            rw [h1] at hm; cases hm
            exact hdrop _ _ i (reindexTable_agree hxy h1 h2 i r hr ht)
  · cases hm

/-- C60. If two data sets show the same at the time of every row of the table, the results are the same, errors included. -/
theorem C60_table_partial (a : CfmArgs) (f0 : Feat) (fs : List Feat) (hf : a.features = f0 :: fs) (passCols : List String) (cut : List CutRow)
    (hcut : a.cutoff = .table passCols cut) (happ : a.approximate = none) (ent' : String → Option Ent)
    (hsame : ∀ r ∈ cut, ∀ t, r.time = some t → SameUntil a f0.entity ent' t) :
    calculateFeatureMatrix (withData a ent') = calculateFeatureMatrix a := by
  have hent : (⟨a.env, a.features, passCols, a.idLe⟩ : Call).entity = f0.entity := by simp [Call.entity, hf]
  have hex : ∀ size, execute a.exec size cut.length TRow.time (timed cut) (calculateExact (Call.withEnt ⟨a.env, a.features, passCols, a.idLe⟩ ent')) =
      execute a.exec size cut.length TRow.time (timed cut) (calculateExact ⟨a.env, a.features, passCols, a.idLe⟩) := by
    intro size
    apply execute_same
    intro s rows hsub
    apply calculateExact_same
    intro x hx grp
    obtain ⟨r, hr, _, ht, _⟩ := (mem_timed _ _).mp (hsub x hx)
    exact groupMatrix_same _ ent' x.time grp fun ids => (hsame r hr x.time ht).run passCols hent ids
  simp only [Call.withEnt] at hex
  unfold calculateFeatureMatrix
  simp only [hcut, cfmTable, happ, hex]
  rfl

/-- C60. The same for a single cutoff time. -/
theorem C60_single_partial (a : CfmArgs) (f0 : Feat) (fs : List Feat) (hf : a.features = f0 :: fs) (t : Int)
    (hcut : a.cutoff = .single t ∨ (a.cutoff = .missing ∧ a.now = t)) (happ : a.approximate = none) (ids : List Val)
    (hids : a.instanceIds = some ids) (ent' : String → Option Ent) (hsame : SameUntil a f0.entity ent' t) :
    calculateFeatureMatrix (withData a ent') = calculateFeatureMatrix a := by
  have hent : (⟨a.env, a.features, [], a.idLe⟩ : Call).entity = f0.entity := by simp [Call.entity, hf]
  have hs : ∀ ids, singleMatrix (Call.withEnt ⟨a.env, a.features, [], a.idLe⟩ ent') t ids = singleMatrix ⟨a.env, a.features, [], a.idLe⟩ t ids :=
    fun ids => singleMatrix_same _ ent' t ids fun ids => hsame.run [] hent ids
  have hex : ∀ size, executeSingle a.exec size (Call.withEnt ⟨a.env, a.features, [], a.idLe⟩ ent') t ids =
      executeSingle a.exec size ⟨a.env, a.features, [], a.idLe⟩ t ids := by
    intro size
    unfold executeSingle
    split
    · exact hs ids
    · split
      · rfl
      · split
        · rfl
        · rename_i k _ _ chunks hc
          congr 1
          apply List.map_congr_left
          intro c hcm
          have : c.1 = t := by
            unfold chunkTuple at hc
            cases hr : chunkRows k ids with
            | error e => rw [hr] at hc; cases hc
            | ok cs =>
              rw [hr] at hc; cases hc
              obtain ⟨x, _, rfl⟩ := List.mem_map.mp hcm
              rfl
          rw [this]; exact hs c.2
  simp only [Call.withEnt] at hex
  have hgo : ∀ b : CfmArgs, b.features = a.features → b.cutoff = a.cutoff → b.now = a.now → b.instanceIds = a.instanceIds →
      calculateFeatureMatrix b = cfmSingle b t ids := by
    intro b h1 h2 h3 h4
    unfold calculateFeatureMatrix
    rw [if_neg (by simp [h1, hf])]
    rcases hcut with h | ⟨h, h'⟩
    · simp only [h2, h, calculateFeatureMatrix.go, h4, hids]
    · simp only [h2, h, h3, h', calculateFeatureMatrix.go, h4, hids]
  rw [hgo a rfl rfl rfl rfl, hgo (withData a ent') rfl rfl rfl rfl]
  unfold cfmSingle
  simp only [happ, hex]
  rfl

/-- C60. The same if no instances are given: all those known at the time are taken, and those are the same. -/
theorem C60_all_instances_partial (a : CfmArgs) (f0 : Feat) (fs : List Feat) (hf : a.features = f0 :: fs) (t : Int)
    (hcut : a.cutoff = .single t ∨ (a.cutoff = .missing ∧ a.now = t)) (happ : a.approximate = none)
    (hids : a.instanceIds = none) (hw : a.env.window.all Window.hasNoObservations = true) (ent' : String → Option Ent)
    (hsame : SameUntil a f0.entity ent' t) :
    calculateFeatureMatrix (withData a ent') = calculateFeatureMatrix a := by
  have hgo : ∀ b : CfmArgs, b.features = a.features → b.cutoff = a.cutoff → b.now = a.now → b.instanceIds = none →
      calculateFeatureMatrix b = match defaultIds b t with
        | .error e => .error e
        | .ok ids => calculateFeatureMatrix { b with instanceIds := some ids } := by
    intro b h1 h2 h3 h4
    obtain ⟨env, features, cutoff, instanceIds, approximate, chunkSize, exec, inIndex, now, idLe⟩ := b
    dsimp only at h1 h2 h3 h4
    subst h1 h2 h3 h4
    unfold calculateFeatureMatrix
    simp only [hf, List.isEmpty_cons, Bool.false_eq_true, if_false]
    rcases hcut with h | ⟨h, h'⟩
    · simp only [h, calculateFeatureMatrix.go]
      generalize defaultIds _ t = o
      cases o <;> rfl
    · simp only [h, h', calculateFeatureMatrix.go]
      generalize defaultIds _ t = o
      cases o <;> rfl
  rw [hgo a rfl rfl rfl hids, hgo (withData a ent') rfl rfl rfl hids]
  have hd : defaultIds (withData a ent') t = defaultIds a t := by
    have hr : ∀ (x : Ent), handleTime x x.df.rows (some t) a.env.window a.env.includeCutoff =
        .ok ((x.df.rows.filter (visB { a.env with timeLast := t } x)).map (shown { a.env with timeLast := t } x)) := by
      intro x
      simp only [handleTime, handleTimeIndex_eq _ _ _ _ _ hw, handleSecondary_eq, bind, Except.bind, pure, Except.pure]
      rfl
    unfold defaultIds
    simp only [hf, List.head?_cons, Option.map_some, Option.getD_some, Env.getEnt]
    rcases hsame.same f0.entity with ⟨h1, h2⟩ | ⟨x, y, h1, h2, h⟩
    · rw [h1, h2]
    · rw [h1, h2]
      simp only [hr]
      have hq := query_same h (hsame.apart _ _ h1) none none none (by simp)
      rw [query_shown { a.env with timeLast := t } x none none none hw, query_shown { a.env with timeLast := t } y none none none hw] at hq
      have hall : ∀ (l : List Row) v, l.filter (wantedB none v) = l := fun l v => List.filter_eq_self.mpr fun _ _ => rfl
      simp only [valsToSeries, Option.map_none, if_true, hall, selectColumns] at hq
      have hrows := congrArg Table.rows (Except.ok.inj hq)
      dsimp only at hrows
      rw [hrows, h.index]
  rw [hd]
  cases defaultIds a t with
  | error e => rfl
  | ok ids => exact C60_single_partial { a with instanceIds := some ids } f0 fs hf t hcut happ ids rfl ent' ⟨hsame.same, hsame.apart, hsame.keys⟩

/-! ## Approximation -/

namespace CfmExample
open CalcExample

/-- Session 13 happens at time 9; with another amount. -/
def later : Ent :=
  { sessions with df := { sessions.df with rows := sessions.df.rows.take 3 ++
      [row [("sid", .num 13), ("customer_id", .num 2), ("time", .num 9), ("amount", .num 666)]] } }
def ent' (e : String) : Option Ent := if e = "customers" then some customers else if e = "sessions" then some later else none

/-- The amount of session 13 at time 2 (before it happens), with the approximated sum of its customer. -/
def early : CfmArgs :=
  { call with features := [lookup, amount], cutoff := .table [] [⟨.num 12, some 2, []⟩, ⟨.num 13, some 2, []⟩], approximate := some (.int 1), exec := .serial, chunkSize := none }

open Classical in
/-- The two data sets show the same at time 2. -/
theorem shown : ∀ x, SameAt { env with timeLast := 2 } (env.ent x) (ent' x) := by
  have vis : ∀ ent : Ent, ent.timeIndex = some "time" →
      (fun r => decide (Visible { env with timeLast := 2 } ent r)) = fun r => (r "time").le 2 := by
    intro ent h
    funext r
    have : visB { env with timeLast := 2 } ent r = (r "time").le 2 := by simp [visB, beforeB, windowB, h, env, Window.start?]
    rw [← this, Bool.eq_iff_iff, visB_iff, decide_eq_true_eq]
  have diag : ∀ l : List Row, l = (l.map fun r => (r, r)).map Prod.fst ∧ l = (l.map fun r => (r, r)).map Prod.snd := by
    intro l; simp [Function.comp_def]
  intro x
  by_cases hc : x = "customers"
  · subst hc
    refine .inr ⟨customers, customers, rfl, rfl, rfl, rfl, rfl, rfl, _, (diag _).1, (diag _).2, ?_⟩
    intro pr hpr c
    obtain ⟨r, _, rfl⟩ := List.mem_map.mp hpr
    exact ⟨Iff.rfl, fun _ => rfl⟩
  · by_cases hs : x = "sessions"
    · subst hs
      refine .inr ⟨sessions, later, rfl, rfl, rfl, rfl, rfl, rfl, (sessions.df.rows.take 3).map fun r => (r, r), ?_, ?_, ?_⟩
      · rw [vis sessions rfl]; rfl
      · rw [vis later rfl]; rfl
      · intro pr hpr c
        obtain ⟨r, _, rfl⟩ := List.mem_map.mp hpr
        exact ⟨Iff.rfl, fun _ => rfl⟩
    · left; simp [env, ent', hc, hs]

theorem neverHidden (x c : String) : NeverHidden env x c := by
  intro e he s hs
  have : e.secondary = [] := by
    simp only [env] at he
    split at he
    · cases he; rfl
    · split at he
      · cases he; rfl
      · cases he
  simp [this] at hs

/-- The data sets `ent` and `ent'` meet the hypothesis of C60 at time 2. -/
theorem sameUntil : SameUntil call "sessions" ent' 2 where
  same := shown
  apart := by
    intro x e he
    have : e.secondary = [] := by
      simp only [call, env] at he
      split at he
      · cases he; rfl
      · split at he
        · cases he; rfl
        · cases he
    simp [SecondaryApart, this]
  keys := ⟨fun e _ => neverHidden _ _, fun g _ ed _ => ⟨neverHidden _ _, neverHidden _ _⟩⟩

end CfmExample

/-- The rows at time 2 are the same for both data sets. -/
example : ∀ (i : Nat) r, CfmExample.cut[i]? = some r → r.time = some 2 →
    ∀ m m', calculateFeatureMatrix CfmExample.call = .ok m → calculateFeatureMatrix (withData CfmExample.call CfmExample.ent') = .ok m' →
      m.rows[i]? = m'.rows[i]? :=
  fun i r hr ht m m' hm hm' => C60_row_partial CfmExample.call _ _ rfl ["label"] CfmExample.cut rfl rfl CfmExample.ent' 2 CfmExample.sameUntil m m' hm hm' i r hr ht

/-- The two calls of the example return matrices, and the row at time 9 does differ. -/
example : ∃ m m', calculateFeatureMatrix CfmExample.call = .ok m ∧ calculateFeatureMatrix (withData CfmExample.call CfmExample.ent') = .ok m' ∧
    m.rows[0]? ≠ m'.rows[0]? := ⟨_, _, rfl, rfl, by decide +kernel⟩

/-- The hypotheses for a single cutoff time hold for a concrete call. -/
example : calculateFeatureMatrix (withData { CfmExample.call with cutoff := .single 2, instanceIds := some [.num 12, .num 13] } CfmExample.ent') =
    calculateFeatureMatrix { CfmExample.call with cutoff := .single 2, instanceIds := some [.num 12, .num 13] } :=
  C60_single_partial _ CalcExample.lookup _ rfl 2 (.inl rfl) rfl _ rfl _ ⟨CfmExample.sameUntil.same, CfmExample.sameUntil.apart, CfmExample.sameUntil.keys⟩

/-- The hypotheses for equal results hold for a concrete call. -/
example : calculateFeatureMatrix (withData { CfmExample.call with cutoff := .table ["label"] (CfmExample.cut.drop 2) } CfmExample.ent') =
    calculateFeatureMatrix { CfmExample.call with cutoff := .table ["label"] (CfmExample.cut.drop 2) } :=
  C60_table_partial _ _ _ rfl ["label"] (CfmExample.cut.drop 2) rfl rfl _ (by
    intro r hr t ht
    have : t = 2 := by
      simp only [CfmExample.cut, List.drop_succ_cons, List.drop_zero, List.mem_cons, List.not_mem_nil, or_false] at hr
      rcases hr with rfl | rfl <;> exact (Option.some.inj ht).symm
    subst this
    exact ⟨CfmExample.sameUntil.same, CfmExample.sameUntil.apart, CfmExample.sameUntil.keys⟩)

/-- C60 fails for `approximate`: if every aggregation is approximated, the other features are computed with all data there is
now. The amount of a session which does not happen before time 9 is in its row at time 2. -/
theorem C60_approximate_violated :
    ∃ (a : CfmArgs) (ent' : String → Option Ent) (m m' : Matrix), SameUntil a "sessions" ent' 2 ∧
      a.cutoff = .table [] [⟨.num 12, some 2, []⟩, ⟨.num 13, some 2, []⟩] ∧
      calculateFeatureMatrix a = .ok m ∧ calculateFeatureMatrix (withData a ent') = .ok m' ∧ m.rows ≠ m'.rows :=
  ⟨CfmExample.early, CfmExample.ent', _, _, ⟨CfmExample.shown, CfmExample.sameUntil.apart,
      ⟨CfmExample.sameUntil.keys.1, fun g _ ed _ => ⟨CfmExample.neverHidden _ _, CfmExample.neverHidden _ _⟩⟩⟩, rfl, rfl, rfl, by decide +kernel⟩

end FT
