import Verif.Lemmas.Progress3
/-!
# The reports of a whole call add up to at most the number of rows
-/
namespace FT
open Watched

theorem natCast_nonneg (n : Nat) : (0 : Rat) ≤ n := by exact_mod_cast Nat.zero_le n

theorem natCast_add' (a b : Nat) : ((a + b : Nat) : Rat) = a + b := by exact_mod_cast rfl

theorem natCast_mono {a b : Nat} (h : a ≤ b) : (a : Rat) ≤ b := by exact_mod_cast h

/-- The number of entries in a list of keyed lists. -/
def keyedCount {κ α : Type} (l : List (κ × List α)) : Nat := (l.map fun g => g.2.length).sum

theorem keyedCount_flat {κ α : Type} (l : List (κ × List α)) : keyedCount l = (l.flatMap Prod.snd).length := by
  rw [keyedCount, List.length_flatMap]

theorem keyedCount_groupByKey {α : Type} (key : α → Int) (rows : List α) : keyedCount (groupByKey key rows) = rows.length := by
  rw [keyedCount_flat]; exact (groupByKey_perm key rows).length_eq

theorem keyedCount_chunkGroups {κ α : Type} {k : Nat} : ∀ {gs out : List (κ × List α)}, chunkGroups k gs = .ok out →
    keyedCount out = keyedCount gs
  | [], out, h => by cases h; rfl
  | (key, rows) :: rest, out, h => by
    simp only [chunkGroups] at h
    cases hc : chunkRows k rows with
    | error e => rw [hc] at h; cases h
    | ok cs =>
      rw [hc] at h
      cases hr : chunkGroups k rest with
      | error e => rw [hr] at h; cases h
      | ok more =>
        rw [hr] at h
        cases h
        have ih := keyedCount_chunkGroups hr
        have hf := congrArg List.length (flatten_chunkRows hc)
        simp only [keyedCount, List.map_append, List.sum_append, List.map_map, List.map_cons, List.sum_cons, List.length_flatten] at ih hf ⊢
        rw [ih, ← hf]
        rfl

theorem keyedCount_pieces {size : Option Nat} {gs out : List (Int × List TRow)} (h : pieces size gs = .ok out) :
    keyedCount out = keyedCount gs := by
  unfold pieces at h
  cases size with
  | none => cases h; rfl
  | some k => exact keyedCount_chunkGroups h

theorem concatAllW_within {α β : Type} (g : α → Watched (List β)) (b : α → Nat) (l : List α)
    (hg : ∀ a ∈ l, (g a).Within (b a)) : (concatAllW g l).Within ((l.map b).sum : Nat) := by
  induction l with
  | nil => exact within_quiet _ (natCast_nonneg _)
  | cons a l ih =>
    unfold concatAllW
    rw [List.map_cons, List.sum_cons, natCast_add']
    refine within_bind (natCast_nonneg _) (hg a (by simp)) fun x _ => ?_
    exact within_bind_quiet (ih fun a ha => hg a (by simp [ha]))

section
variable (merged : List Feat → Nat) (hm : ∀ fs, merged fs ≤ fs.length)
include hm

theorem scaled_within (env : Env) (targets : List Feat) (approx : ATrie) (pre : PTrie) (e : String) (ids : List Val) (n : Nat) :
    ((runW merged env targets approx pre e ids).scale n).Within n := by
  have := within_scale (natCast_nonneg n) (runW_within merged hm env targets approx pre e ids)
  rwa [Rat.one_mul] at this

theorem groupMatrixW_within (c : Call) (t : Int) (grp : List TRow) : (groupMatrixW merged c t grp).Within grp.length :=
  within_bind_quiet (scaled_within merged hm ..)

theorem groupMatrixApproxW_within (c : Call) (window : Option Window) (pre : PTrie) (t : Int) (grp : List TRow) :
    (groupMatrixApproxW merged c window pre t grp).Within grp.length :=
  within_bind_quiet (scaled_within merged hm ..)

theorem singleMatrixW_within (c : Call) (t : Int) (ids : List Val) : (singleMatrixW merged c t ids).Within ids.length :=
  within_bind_quiet (scaled_within merged hm ..)

theorem calculateExactW_within (c : Call) (size : Option Nat) (rows : List TRow) :
    (calculateExactW merged c size rows).Within rows.length := by
  unfold calculateExactW
  dsimp only
  split
  · exact within_quiet _ (natCast_nonneg _)
  · rw [← keyedCount_groupByKey TRow.time rows]
    refine concatAllW_within _ (fun g : Int × List TRow => g.2.length) _ fun g _ => ?_
    refine within_quiet_bind (natCast_nonneg _) fun ps hps => ?_
    rw [← keyedCount_groupByKey TRow.time g.2, ← keyedCount_pieces hps]
    exact concatAllW_within _ (fun p : Int × List TRow => p.2.length) _ fun p _ => groupMatrixW_within merged hm ..

theorem binMatrixW_within (c : Call) (now : Int) (size : Option Nat) (b : Int) (rows : List TRow) :
    (binMatrixW merged c now size b rows).Within rows.length := by
  unfold binMatrixW
  dsimp only
  refine within_quiet_bind (natCast_nonneg _) fun pre _ => ?_
  refine within_quiet_bind (natCast_nonneg _) fun ps hps => ?_
  have hc : keyedCount ps = rows.length := by
    rw [keyedCount_pieces hps]
    split
    · simp [keyedCount]
    · rw [keyedCount_groupByKey, List.length_map]
  rw [← hc]
  exact concatAllW_within _ (fun p : Int × List TRow => p.2.length) _ fun p _ => groupMatrixApproxW_within merged hm ..

theorem calculateBinnedW_within (c : Call) (now : Int) (size : Option Nat) (rows : List (Int × TRow)) :
    (calculateBinnedW merged c now size rows).Within rows.length := by
  unfold calculateBinnedW
  dsimp only
  split
  · exact within_quiet _ (natCast_nonneg _)
  · rw [← keyedCount_groupByKey Prod.fst rows]
    refine concatAllW_within _ (fun g : Int × List (Int × TRow) => g.2.length) _ fun g _ => ?_
    have := binMatrixW_within merged hm c now size g.1 (g.2.map Prod.snd)
    rwa [List.length_map] at this

end

/-! ### Parallel runs -/

/-- The rows of a result. -/
def resultRows (r : Except PyErr (List MRow)) : Nat := match r with | .ok rows => rows.length | .error _ => 0

theorem gatherW_within (order : Nat → List Nat) (ho : ∀ n, (order n).Perm (List.range n))
    (results : List (Except PyErr (List MRow))) : (gatherW order results).Within ((results.map resultRows).sum : Nat) := by
  unfold gatherW
  split
  · exact within_quiet _ (natCast_nonneg _)
  · have hp : ((order results.length).filterMap fun i => results[i]?).Perm results := by
      have := (ho results.length).filterMap fun i => results[i]?
      rwa [filterMap_range_getElem] at this
    rw [← (hp.map resultRows).sum_nat]
    refine concatAllW_within _ resultRows _ fun r _ => ?_
    cases r with
    | ok rows =>
      refine ⟨by intro x hx; rw [List.mem_singleton] at hx; subst hx; exact natCast_nonneg _, ?_⟩
      simp only [tsum, resultRows]; grind
    | error e => exact ⟨by simp, natCast_nonneg _⟩

theorem groupMatrix_length {c : Call} {t : Int} {grp : List TRow} {out : List MRow} (h : groupMatrix c t grp = .ok out) :
    out.length = grp.length := by
  unfold groupMatrix at h
  dsimp only at h
  split at h
  · cases h
  · split at h
    · rename_i hl
      cases h
      rw [List.length_map, hl, (isort_perm _ _).length_eq, List.length_map]
    · cases h

theorem singleMatrix_length {c : Call} {t : Int} {ids : List Val} {out : List MRow} (h : singleMatrix c t ids = .ok out) :
    out.length = ids.length := by
  unfold singleMatrix at h
  split at h
  · cases h
  · split at h
    · rename_i hl
      cases h
      rw [List.length_map, hl]
    · cases h

theorem concatAll_length {α β : Type} {g : α → Except PyErr (List β)} {b : α → Nat} : ∀ {l : List α} {out : List β},
    (∀ a ∈ l, ∀ x, g a = .ok x → x.length = b a) → concatAll g l = .ok out → out.length = (l.map b).sum
  | [], out, _, h => by cases h; rfl
  | a :: l, out, hg, h => by
    simp only [concatAll] at h
    cases ha : g a with
    | error e => rw [ha] at h; cases h
    | ok x =>
      rw [ha] at h
      cases hl : concatAll g l with
      | error e => rw [hl] at h; cases h
      | ok y =>
        rw [hl] at h
        cases h
        rw [List.length_append, hg a (by simp) x ha, concatAll_length (fun a ha => hg a (by simp [ha])) hl]
        rfl

theorem calculateExact_length {c : Call} {size : Option Nat} {rows : List TRow} {out : List MRow}
    (h : calculateExact c size rows = .ok out) : out.length = rows.length := by
  unfold calculateExact at h
  dsimp only at h
  split at h
  · cases h
  · rw [concatAll_length (b := fun g => g.2.length) ?_ h]
    · exact keyedCount_groupByKey TRow.time rows
    · intro g _ x hx
      cases hp : pieces size (groupByKey TRow.time g.2) with
      | error e => rw [hp] at hx; cases hx
      | ok ps =>
        rw [hp] at hx
        rw [concatAll_length (b := fun p => p.2.length) (fun p _ y hy => groupMatrix_length hy) hx]
        rw [← keyedCount_groupByKey TRow.time g.2, ← keyedCount_pieces hp]
        rfl

theorem sum_map_le {α : Type} (f g : α → Nat) : ∀ (l : List α), (∀ a ∈ l, f a ≤ g a) → (l.map f).sum ≤ (l.map g).sum
  | [], _ => Nat.le_refl _
  | a :: l, h => by
    simp only [List.map_cons, List.sum_cons]
    have := h a (by simp)
    have := sum_map_le f g l fun a ha => h a (by simp [ha])
    omega

theorem executeW_exact_within (merged : List Feat → Nat) (hm : ∀ fs, merged fs ≤ fs.length) (exec : Exec)
    (hx : Spec.Fair exec) (size : Option Nat) (total : Nat) (c : Call) (rows : List TRow) :
    (executeW exec size total TRow.time rows (calculateExactW merged c)).Within rows.length := by
  cases exec with
  | serial => exact calculateExactW_within merged hm ..
  | parallel workers order =>
    unfold executeW
    refine within_quiet_bind (natCast_nonneg _) fun k _ => ?_
    refine within_quiet_bind (natCast_nonneg _) fun chunks hc => ?_
    refine (gatherW_within order hx.2 _).mono (natCast_mono ?_)
    rw [List.map_map, ← keyedCount_groupByKey TRow.time rows, ← keyedCount_chunkGroups hc]
    refine sum_map_le _ _ _ fun ch _ => ?_
    simp only [Function.comp, calculateExactW_out, resultRows]
    split
    · rename_i out ho; exact Nat.le_of_eq (calculateExact_length ho)
    · exact Nat.zero_le _

theorem executeSingleW_within (merged : List Feat → Nat) (hm : ∀ fs, merged fs ≤ fs.length) (exec : Exec)
    (hx : Spec.Fair exec) (size : Option Nat) (c : Call) (t : Int) (ids : List Val) :
    (executeSingleW merged exec size c t ids).Within ids.length := by
  cases exec with
  | serial => exact singleMatrixW_within merged hm ..
  | parallel workers order =>
    unfold executeSingleW
    refine within_quiet_bind (natCast_nonneg _) fun k _ => ?_
    refine within_quiet_bind (natCast_nonneg _) fun chunks hc => ?_
    refine (gatherW_within order hx.2 _).mono (natCast_mono ?_)
    rw [List.map_map]
    unfold chunkTuple at hc
    cases hr : chunkRows k ids with
    | error e => rw [hr] at hc; cases hc
    | ok cs =>
      rw [hr] at hc
      cases hc
      have hf := congrArg List.length (flatten_chunkRows hr)
      rw [List.length_flatten] at hf
      rw [← hf, List.map_map]
      refine sum_map_le _ _ _ fun ch _ => ?_
      simp only [Function.comp, singleMatrixW_out, resultRows]
      split
      · rename_i out ho; exact Nat.le_of_eq (singleMatrix_length ho)
      · exact Nat.zero_le _

theorem executeW_serial_within (merged : List Feat → Nat) (hm : ∀ fs, merged fs ≤ fs.length) (size : Option Nat)
    (total : Nat) (c : Call) (now : Int) (rows : List (Int × TRow)) :
    (executeW .serial size total Prod.fst rows (calculateBinnedW merged c now)).Within rows.length :=
  calculateBinnedW_within merged hm ..

theorem refill_length (bs : List Int) (rows : List TRow) : (refill bs rows).length ≤ rows.length := by
  induction rows generalizing bs with
  | nil => cases bs <;> simp [refill]
  | cons r rows ih =>
    cases bs with
    | nil => simp [refill]
    | cons b bs => simp only [refill, List.length_cons]; have := ih bs; omega

theorem binRows_length {a : Approx} {rows : List TRow} {out : List (Int × TRow)} (h : binRows a rows = .ok out) :
    out.length ≤ rows.length := by
  unfold binRows at h
  split at h
  · split at h
    · cases h
    · cases h; simp
  · split at h
    · cases h
    · cases h; simp
    · cases h; exact refill_length _ _

theorem timed_length (cut : List CutRow) : (timed cut).length ≤ cut.length := List.length_filterMap_le _ _

end FT
