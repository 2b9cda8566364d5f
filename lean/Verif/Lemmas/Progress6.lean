import Verif.Lemmas.Progress5
/-!
# The reports of a whole call
-/
namespace FT
open Watched

theorem honest_nil {α : Type} (e : PyErr) : Spec.Honest [] (Spec.done (.error e : Except PyErr α)) :=
  ⟨⟨by simp, by simp⟩, fun _ => by simp [Spec.Unfinished], by intro h; cases h⟩

theorem withBar_ok {α β : Type} {rows : Nat} {m : Watched α} {rest : α → Except PyErr β} {b : β}
    (h : (withBar rows m rest).2 = .ok b) : ∃ a, m.out = .ok a ∧ rest a = .ok b := by
  rw [withBar_out] at h
  cases hm : m.out with
  | error e => rw [hm] at h; cases h
  | ok a => rw [hm] at h; exact ⟨a, rfl, h⟩

theorem timed_nil_of_length {cut : List CutRow} (h : cut.length = 0) : timed cut = [] := by
  rw [List.length_eq_zero_iff.mp h]; rfl

theorem executeSingle_nil (exec : Exec) (size : Option Nat) (c : Call) (t : Int) : ∃ e, executeSingle exec size c t [] = .error e := by
  cases exec with
  | serial => exact ⟨_, rfl⟩
  | parallel workers order =>
    unfold executeSingle
    dsimp only
    split
    · exact ⟨_, rfl⟩
    · rename_i k _
      split
      · exact ⟨_, rfl⟩
      · rename_i chunks hc
        unfold chunkTuple chunkRows at hc
        by_cases hk : k = 0
        · rw [if_pos hk] at hc; cases hc
        · rw [if_neg hk] at hc
          have : (([] : List Val).length + k - 1) / k = 0 := by
            rw [List.length_nil]; exact Nat.div_eq_of_lt (by omega)
          rw [this] at hc
          cases hc
          exact ⟨_, rfl⟩

theorem exactBar_honest (merged : List Feat → Nat) (hm : ∀ fs, merged fs ≤ fs.length) (exec : Exec) (hx : Spec.Fair exec)
    (size : Option Nat) (c : Call) (cut : List CutRow) (rest : List MRow → Except PyErr Matrix) :
    Spec.Honest (withBar cut.length (executeW exec size cut.length TRow.time (timed cut) (calculateExactW merged c)) rest).1
      (Spec.done (withBar cut.length (executeW exec size cut.length TRow.time (timed cut) (calculateExactW merged c)) rest).2) := by
  refine withBar_honest _ _ _ ((executeW_exact_within merged hm exec hx ..).mono (natCast_mono (timed_length cut))) ?_
  rintro ⟨b, hb⟩ h0
  obtain ⟨out, ho, _⟩ := withBar_ok hb
  rw [executeW_out _ _ _ _ _ _ _ (calculateExactW_out merged _), timed_nil_of_length h0] at ho
  obtain ⟨e, he⟩ := execute_nil exec size cut.length TRow.time (calculateExact c) fun s => ⟨_, rfl⟩
  rw [he] at ho
  cases ho

theorem singleBar_honest (merged : List Feat → Nat) (hm : ∀ fs, merged fs ≤ fs.length) (exec : Exec) (hx : Spec.Fair exec)
    (size : Option Nat) (c : Call) (t : Int) (ids : List Val) (rest : List MRow → Except PyErr Matrix) :
    Spec.Honest (withBar ids.length (executeSingleW merged exec size c t ids) rest).1
      (Spec.done (withBar ids.length (executeSingleW merged exec size c t ids) rest).2) := by
  refine withBar_honest _ _ _ (executeSingleW_within merged hm exec hx ..) ?_
  rintro ⟨b, hb⟩ h0
  obtain ⟨out, ho, _⟩ := withBar_ok hb
  rw [executeSingleW_out, List.length_eq_zero_iff.mp h0] at ho
  obtain ⟨e, he⟩ := executeSingle_nil exec size c t
  rw [he] at ho
  cases ho

theorem binnedBar_honest (merged : List Feat → Nat) (hm : ∀ fs, merged fs ≤ fs.length) (exec : Exec)
    (size : Option Nat) (c : Call) (now : Int) (ap : Approx) (cut : List CutRow) (binned : List (Int × TRow))
    (hbin : binRows ap (timed cut) = .ok binned) (cols : List String) (f : Matrix → Matrix)
    (h : exec = .serial ∨ ∃ m, (withBar cut.length (executeW exec size cut.length Prod.fst binned (calculateBinnedW merged c now))
      fun rows => (reindexTable cols cut rows).map f).2 = .ok m) :
    Spec.Honest (withBar cut.length (executeW exec size cut.length Prod.fst binned (calculateBinnedW merged c now))
        fun rows => (reindexTable cols cut rows).map f).1
      (Spec.done (withBar cut.length (executeW exec size cut.length Prod.fst binned (calculateBinnedW merged c now))
        fun rows => (reindexTable cols cut rows).map f).2) := by
  have hserial : exec = .serial → (executeW exec size cut.length Prod.fst binned (calculateBinnedW merged c now)).Within cut.length := by
    rintro rfl
    exact (executeW_serial_within merged hm ..).mono (natCast_mono (Nat.le_trans (binRows_length hbin) (timed_length cut)))
  refine withBar_honest _ _ _ ?_ ?_
  · rcases h with h | ⟨m, hok⟩
    · exact hserial h
    · obtain ⟨out, ho, hr⟩ := withBar_ok hok
      cases exec with
      | serial => exact hserial rfl
      | parallel workers order =>
        cases hre : reindexTable cols cut out with
        | error e => rw [hre] at hr; cases hr
        | ok m' => exact executeW_binned_within merged workers order size _ c now ap cut binned hbin out cols m' ho hre
  · rintro ⟨b, hb⟩ h0
    obtain ⟨out, ho, _⟩ := withBar_ok hb
    rw [timed_nil_of_length h0] at hbin
    rw [executeW_out _ _ _ _ _ _ _ (calculateBinnedW_out merged _ _), binRows_nil hbin] at ho
    obtain ⟨e, he⟩ := execute_nil exec size cut.length Prod.fst (calculateBinned c now) fun s => ⟨_, rfl⟩
    rw [he] at ho
    cases ho

theorem cfmTableW_honest (merged : List Feat → Nat) (hm : ∀ fs, merged fs ≤ fs.length) (a : CfmArgs) (hx : Spec.Fair a.exec)
    (passCols : List String) (cut : List CutRow)
    (h : a.approximate = none ∨ a.exec = .serial ∨ ∃ m, (cfmTableW merged a passCols cut).2 = .ok m) :
    Spec.Honest (cfmTableW merged a passCols cut).1 (Spec.done (cfmTableW merged a passCols cut).2) := by
  unfold cfmTableW at h ⊢
  dsimp only at h ⊢
  by_cases hn : noDup (cut.map fun r => (r.id, r.time)) = true
  · rw [if_pos hn] at h ⊢
    cases ha : a.approximate with
    | none =>
      dsimp only
      cases chunkSizeOf a.chunkSize cut.length with
      | error e => exact honest_nil e
      | ok size => exact exactBar_honest merged hm a.exec hx ..
    | some ap =>
      rw [ha] at h
      dsimp only at h ⊢
      cases hb : binRows ap (timed cut) with
      | error e => exact honest_nil e
      | ok binned =>
        rw [hb] at h
        dsimp only at h ⊢
        cases hs : chunkSizeOf a.chunkSize cut.length with
        | error e => exact honest_nil e
        | ok size =>
          rw [hs] at h
          dsimp only at h ⊢
          refine binnedBar_honest merged hm a.exec size _ a.now ap cut binned hb _ _ ?_
          rcases h with h | h | h
          · cases h
          · exact .inl h
          · exact .inr h
  · rw [if_neg hn] at h ⊢
    exact honest_nil _

theorem cfmSingleW_honest (merged : List Feat → Nat) (hm : ∀ fs, merged fs ≤ fs.length) (a : CfmArgs) (hx : Spec.Fair a.exec)
    (t : Int) (ids : List Val) (h : a.approximate = none ∨ a.exec = .serial ∨ ∃ m, (cfmSingleW merged a t ids).2 = .ok m) :
    Spec.Honest (cfmSingleW merged a t ids).1 (Spec.done (cfmSingleW merged a t ids).2) := by
  unfold cfmSingleW at h ⊢
  dsimp only at h ⊢
  cases ha : a.approximate with
  | none =>
    dsimp only
    cases chunkSizeOf a.chunkSize ids.length with
    | error e => exact honest_nil e
    | ok size => exact singleBar_honest merged hm a.exec hx ..
  | some ap =>
    rw [ha] at h
    dsimp only at h ⊢
    cases hb : binRows ap (timed (ids.map fun i => (⟨i, some t, []⟩ : CutRow))) with
    | error e => exact honest_nil e
    | ok binned =>
      rw [hb] at h
      dsimp only at h ⊢
      cases hs : chunkSizeOf a.chunkSize (ids.map fun i => (⟨i, some t, []⟩ : CutRow)).length with
      | error e => exact honest_nil e
      | ok size =>
        rw [hs] at h
        dsimp only at h ⊢
        refine binnedBar_honest merged hm a.exec size _ a.now ap _ binned hb _ _ ?_
        rcases h with h | h | h
        · cases h
        · exact .inl h
        · exact .inr h

theorem watched_honest (merged : List Feat → Nat) (hm : ∀ fs, merged fs ≤ fs.length) (a : CfmArgs) (hx : Spec.Fair a.exec)
    (h : a.approximate = none ∨ a.exec = .serial ∨ ∃ m, (watchedFeatureMatrix merged a).2 = .ok m) :
    Spec.Honest (watchedFeatureMatrix merged a).1 (Spec.done (watchedFeatureMatrix merged a).2) := by
  have go : ∀ t, (a.approximate = none ∨ a.exec = .serial ∨ ∃ m, (watchedFeatureMatrix.go merged a t).2 = .ok m) →
      Spec.Honest (watchedFeatureMatrix.go merged a t).1 (Spec.done (watchedFeatureMatrix.go merged a t).2) := by
    intro t h
    unfold watchedFeatureMatrix.go at h ⊢
    cases hi : a.instanceIds with
    | some ids => rw [hi] at h; exact cfmSingleW_honest merged hm a hx t ids h
    | none =>
      rw [hi] at h
      dsimp only at h ⊢
      cases hd : defaultIds a t with
      | error e => exact honest_nil e
      | ok ids => rw [hd] at h; exact cfmSingleW_honest merged hm a hx t ids h
  unfold watchedFeatureMatrix at h ⊢
  by_cases he : a.features.isEmpty = true
  · rw [if_pos he] at h ⊢; exact honest_nil _
  · rw [if_neg he] at h ⊢
    cases hc : a.cutoff with
    | table p c => rw [hc] at h; exact cfmTableW_honest merged hm a hx p c h
    | single t => rw [hc] at h; exact go t h
    | missing => rw [hc] at h; exact go a.now h

/-! ### Facts that do not depend on the outcome -/

/-- The reports of amounts that are not negative. -/
def Steady' (l : List Report) : Prop :=
  ∃ total xs, 0 ≤ total ∧ (∀ x ∈ xs, 0 ≤ x) ∧ l = reportsFrom total 0 xs

theorem steady_nil : Steady' [] := ⟨0, [], Rat.le_refl, by simp, rfl⟩

theorem steady_forward {l : List Report} (h : Steady' l) : ∀ r ∈ l, 0 ≤ r.update := by
  obtain ⟨total, xs, ht, hx, rfl⟩ := h
  intro r hr
  obtain ⟨a, x, b, rfl, rfl⟩ := reportsFrom_mem hr
  exact Rat.mul_nonneg (div_nonneg' (hx x (by simp)) ht) (by decide +kernel)

theorem steady_adds {l : List Report} (h : Steady' l) (i : Nat) (r : Report) (hr : l[i]? = some r) :
    r.percent = ((l.take (i + 1)).map Report.update).sum := by
  obtain ⟨total, xs, ht, hx, rfl⟩ := h
  rw [reportsFrom_adds _ _ _ _ _ hr]
  simp only [Rat.div_def]
  grind

theorem withBar_steady {α β : Type} (rows : Nat) (m : Watched α) (rest : α → Except PyErr β) (hm : ∀ x ∈ m.ticks, 0 ≤ x)
    (h : ∀ b, (withBar rows m rest).2 ≠ .ok b) : Steady' (withBar rows m rest).1 := by
  have : (withBar rows m rest).1 = reportsFrom ((rows : Rat) / calculationShare) 0 m.ticks := by
    unfold withBar at h ⊢
    dsimp only at h ⊢
    cases ho : m.out with
    | error e => rfl
    | ok a =>
      rw [ho] at h
      dsimp only at h ⊢
      cases hr : rest a with
      | error e => rfl
      | ok b => rw [hr] at h; exact absurd rfl (h b)
  rw [this]
  exact ⟨_, _, barTotal_nonneg rows, hm, rfl⟩

theorem binnedW_nonneg (merged : List Feat → Nat) (hm : ∀ fs, merged fs ≤ fs.length) (exec : Exec) (hx : Spec.Fair exec)
    (size : Option Nat) (total : Nat) (c : Call) (now : Int) (rows : List (Int × TRow)) :
    ∀ x ∈ (executeW exec size total Prod.fst rows (calculateBinnedW merged c now)).ticks, 0 ≤ x := by
  cases exec with
  | serial => exact (executeW_serial_within merged hm size total c now rows).1
  | parallel workers order =>
    unfold executeW
    dsimp only
    simp only [Watched.bind, Watched.quiet]
    split
    · simp
    · split
      · simp
      · simp only [List.nil_append]
        exact (gatherW_within order hx.2 _).1

theorem cfmTableW_steady (merged : List Feat → Nat) (hm : ∀ fs, merged fs ≤ fs.length) (a : CfmArgs) (hx : Spec.Fair a.exec)
    (passCols : List String) (cut : List CutRow) (h : ∀ m, (cfmTableW merged a passCols cut).2 ≠ .ok m) :
    Steady' (cfmTableW merged a passCols cut).1 := by
  unfold cfmTableW at h ⊢
  dsimp only at h ⊢
  by_cases hn : noDup (cut.map fun r => (r.id, r.time)) = true
  · rw [if_pos hn] at h ⊢
    cases ha : a.approximate with
    | none =>
      rw [ha] at h
      dsimp only at h ⊢
      cases hs : chunkSizeOf a.chunkSize cut.length with
      | error e => exact steady_nil
      | ok size => rw [hs] at h; exact withBar_steady _ _ _ (executeW_exact_within merged hm a.exec hx ..).1 h
    | some ap =>
      rw [ha] at h
      dsimp only at h ⊢
      cases hb : binRows ap (timed cut) with
      | error e => exact steady_nil
      | ok binned =>
        rw [hb] at h
        dsimp only at h ⊢
        cases hs : chunkSizeOf a.chunkSize cut.length with
        | error e => exact steady_nil
        | ok size => rw [hs] at h; exact withBar_steady _ _ _ (binnedW_nonneg merged hm a.exec hx _ _ _ _ _) h
  · rw [if_neg hn]
    exact steady_nil

theorem cfmSingleW_steady (merged : List Feat → Nat) (hm : ∀ fs, merged fs ≤ fs.length) (a : CfmArgs) (hx : Spec.Fair a.exec)
    (t : Int) (ids : List Val) (h : ∀ m, (cfmSingleW merged a t ids).2 ≠ .ok m) : Steady' (cfmSingleW merged a t ids).1 := by
  unfold cfmSingleW at h ⊢
  dsimp only at h ⊢
  cases ha : a.approximate with
  | none =>
    rw [ha] at h
    dsimp only at h ⊢
    cases hs : chunkSizeOf a.chunkSize ids.length with
    | error e => exact steady_nil
    | ok size => rw [hs] at h; exact withBar_steady _ _ _ (executeSingleW_within merged hm a.exec hx ..).1 h
  | some ap =>
    rw [ha] at h
    dsimp only at h ⊢
    cases hb : binRows ap (timed (ids.map fun i => (⟨i, some t, []⟩ : CutRow))) with
    | error e => exact steady_nil
    | ok binned =>
      rw [hb] at h
      dsimp only at h ⊢
      cases hs : chunkSizeOf a.chunkSize (ids.map fun i => (⟨i, some t, []⟩ : CutRow)).length with
      | error e => exact steady_nil
      | ok size => rw [hs] at h; exact withBar_steady _ _ _ (binnedW_nonneg merged hm a.exec hx _ _ _ _ _) h

theorem watched_steady (merged : List Feat → Nat) (hm : ∀ fs, merged fs ≤ fs.length) (a : CfmArgs) (hx : Spec.Fair a.exec)
    (h : ∀ m, (watchedFeatureMatrix merged a).2 ≠ .ok m) : Steady' (watchedFeatureMatrix merged a).1 := by
  have go : ∀ t, (∀ m, (watchedFeatureMatrix.go merged a t).2 ≠ .ok m) → Steady' (watchedFeatureMatrix.go merged a t).1 := by
    intro t h
    unfold watchedFeatureMatrix.go at h ⊢
    cases hi : a.instanceIds with
    | some ids => rw [hi] at h; exact cfmSingleW_steady merged hm a hx t ids h
    | none =>
      rw [hi] at h
      dsimp only at h ⊢
      cases hd : defaultIds a t with
      | error e => exact steady_nil
      | ok ids => rw [hd] at h; exact cfmSingleW_steady merged hm a hx t ids h
  unfold watchedFeatureMatrix at h ⊢
  by_cases he : a.features.isEmpty = true
  · rw [if_pos he]; exact steady_nil
  · rw [if_neg he] at h ⊢
    cases hc : a.cutoff with
    | table p c => rw [hc] at h; exact cfmTableW_steady merged hm a hx p c h
    | single t => rw [hc] at h; exact go t h
    | missing => rw [hc] at h; exact go a.now h

end FT
