import Verif.Lemmas.Progress4
import Verif.Lemmas.EntitySetEq
import Verif.Lemmas.CfmLeak
import Verif.Spec.Progress
/-!
# The bar around the calculation
-/
namespace FT
open Watched

theorem reportsFrom_append (total : Rat) : ∀ (xs ys : List Rat) (n : Rat),
    reportsFrom total n (xs ++ ys) = reportsFrom total n xs ++ reportsFrom total (xs.foldl (· + ·) n) ys
  | [], ys, n => rfl
  | x :: xs, ys, n => by simp only [List.cons_append, reportsFrom, List.foldl_cons, reportsFrom_append total xs ys]

theorem reportsFrom_adds (total : Rat) : ∀ (xs : List Rat) (n : Rat) (i : Nat) (r : Report),
    (reportsFrom total n xs)[i]? = some r → r.percent = n / total * 100 + (((reportsFrom total n xs).take (i + 1)).map Report.update).sum
  | [], n, i, r, h => by simp [reportsFrom] at h
  | x :: xs, n, 0, r, h => by
    simp only [reportsFrom, List.getElem?_cons_zero, Option.some.injEq] at h
    subst h
    simp only [reportsFrom, List.take_succ_cons, List.take_zero, List.map_cons, List.map_nil, List.sum_cons, List.sum_nil, Rat.div_def]
    grind
  | x :: xs, n, i + 1, r, h => by
    simp only [reportsFrom, List.getElem?_cons_succ] at h
    rw [reportsFrom_adds total xs _ i r h]
    simp only [reportsFrom, List.take_succ_cons, List.map_cons, List.sum_cons, Rat.div_def]
    grind

theorem reportsFrom_mem {total : Rat} {r : Report} : ∀ {xs : List Rat} {n : Rat}, r ∈ reportsFrom total n xs →
    ∃ a x b, xs = a ++ x :: b ∧ r = ⟨x / total * 100, (n + tsum a + x) / total * 100⟩
  | [], n, h => by simp [reportsFrom] at h
  | x :: xs, n, h => by
    simp only [reportsFrom, List.mem_cons] at h
    rcases h with h | h
    · refine ⟨[], x, xs, rfl, ?_⟩
      rw [h]
      simp only [tsum, Report.mk.injEq]
      constructor <;> congr 2 <;> grind
    · obtain ⟨a, y, b, rfl, hr⟩ := reportsFrom_mem h
      refine ⟨x :: a, y, b, rfl, ?_⟩
      rw [hr]
      simp only [tsum, Report.mk.injEq, true_and]
      congr 2
      grind

theorem div_nonneg' {a b : Rat} (ha : 0 ≤ a) (hb : 0 ≤ b) : 0 ≤ a / b := by
  rw [Rat.div_def]
  refine Rat.mul_nonneg ha ?_
  by_cases h : b = 0
  · rw [h]; decide +kernel
  · have : 0 < b := by grind
    exact Rat.le_of_lt (Rat.inv_pos.mpr this)

theorem barTotal (rows : Nat) : (rows : Rat) / calculationShare = rows * (100 / 95) := by
  rw [calculationShare, Rat.div_def]
  congr 1
  decide +kernel

theorem barTotal_nonneg (rows : Nat) : 0 ≤ (rows : Rat) / calculationShare := by
  rw [barTotal]
  exact Rat.mul_nonneg (natCast_nonneg _) (by decide +kernel)

/-- Not more than the rows is not more than 95 percent. -/
theorem percent_le {rows : Nat} {x : Rat} (h : x ≤ rows) : x / ((rows : Rat) / calculationShare) * 100 ≤ 95 := by
  by_cases h0 : rows = 0
  · subst h0
    have : ((0 : Nat) : Rat) / calculationShare = 0 := by rw [barTotal]; decide +kernel
    rw [this, Rat.div_def, show (0 : Rat)⁻¹ = 0 from by decide +kernel, Rat.mul_zero]
    decide +kernel
  · have hr : (0 : Rat) < rows := by exact_mod_cast Nat.pos_of_ne_zero h0
    have hr' : (rows : Rat) ≠ 0 := by grind
    have ht : (0 : Rat) < rows / calculationShare := by
      rw [barTotal]
      have : (0 : Rat) < 100 / 95 := by decide +kernel
      exact Rat.mul_pos hr this
    have hi := Rat.inv_pos.mpr ht
    have h1 : x / ((rows : Rat) / calculationShare) ≤ rows / ((rows : Rat) / calculationShare) := by
      rw [Rat.div_def, Rat.div_def]
      exact Rat.mul_le_mul_of_nonneg_right h (Rat.le_of_lt hi)
    have h2 : (rows : Rat) / ((rows : Rat) / calculationShare) = 95 / 100 := by
      have hm := Rat.mul_inv_cancel ((rows : Rat) / calculationShare) (by grind)
      rw [Rat.div_def rows (rows / calculationShare)]
      rw [barTotal] at hm ⊢
      grind
    rw [h2] at h1
    grind

theorem tsum_prefix_le {xs a b : List Rat} {x : Rat} (h : xs = a ++ x :: b) (hn : ∀ y ∈ xs, 0 ≤ y) : tsum a + x ≤ tsum xs := by
  rw [h, tsum_append]
  have : 0 ≤ tsum b := tsum_nonneg fun y hy => hn y (by rw [h]; simp [hy])
  simp only [tsum]
  grind

theorem withBar_honest {α β : Type} (rows : Nat) (m : Watched α) (rest : α → Except PyErr β)
    (hm : m.Within rows) (hpos : (∃ b, (withBar rows m rest).2 = .ok b) → rows ≠ 0) :
    Spec.Honest (withBar rows m rest).1 (Spec.done (withBar rows m rest).2) := by
  have told : ∀ r ∈ reportsFrom ((rows : Rat) / calculationShare) 0 m.ticks, 0 ≤ r.update ∧ r.percent ≤ 95 := by
    intro r hr
    obtain ⟨a, x, b, hx, rfl⟩ := reportsFrom_mem hr
    constructor
    · have h1 : 0 ≤ x := hm.1 x (by rw [hx]; simp)
      exact Rat.mul_nonneg (div_nonneg' h1 (barTotal_nonneg _)) (by decide +kernel)
    · apply percent_le
      have := tsum_prefix_le hx hm.1
      have := hm.2
      grind
  have add0 : ∀ xs (i : Nat) r, (reportsFrom ((rows : Rat) / calculationShare) 0 xs)[i]? = some r →
      r.percent = (((reportsFrom ((rows : Rat) / calculationShare) 0 xs).take (i + 1)).map Report.update).sum := by
    intro xs i r h
    have := reportsFrom_adds _ _ _ _ _ h
    rw [this]
    simp only [Rat.div_def]
    grind
  unfold withBar at hpos ⊢
  dsimp only at hpos ⊢
  cases ho : m.out with
  | error e => exact ⟨⟨add0 _, fun r hr => (told r hr).1⟩, fun _ r hr => (told r hr).2, by intro h; cases h⟩
  | ok a =>
    rw [ho] at hpos
    dsimp only at hpos ⊢
    cases hb : rest a with
    | error e => exact ⟨⟨add0 _, fun r hr => (told r hr).1⟩, fun _ r hr => (told r hr).2, by intro h; cases h⟩
    | ok b =>
      rw [hb] at hpos
      dsimp only at hpos ⊢
      have hne := hpos ⟨b, rfl⟩
      have hr0 : (0 : Rat) < rows := by exact_mod_cast Nat.pos_of_ne_zero hne
      have ht : (0 : Rat) < rows / calculationShare := by
        rw [barTotal]
        exact Rat.mul_pos hr0 (by decide +kernel)
      have hle : tsum m.ticks ≤ (rows : Rat) / calculationShare := by
        have h1 := hm.2
        rw [barTotal]
        have : (rows : Rat) * 1 ≤ rows * (100 / 95) := Rat.mul_le_mul_of_nonneg_left (by decide +kernel) (Rat.le_of_lt hr0)
        grind
      rw [← reportsFrom_append]
      refine ⟨⟨add0 _, ?_⟩, (by intro h; cases h), fun _ => ?_⟩
      · intro r hr
        rw [reportsFrom_append, List.mem_append] at hr
        rcases hr with hr | hr
        · exact (told r hr).1
        · simp only [reportsFrom, List.mem_singleton] at hr
          subst hr
          dsimp only
          refine Rat.mul_nonneg (div_nonneg' ?_ (Rat.le_of_lt ht)) (by decide +kernel)
          rw [foldl_tsum]
          grind
      · rw [reportsFrom_append]
        refine ⟨_, ?u, ?_, fun r hr => (told r hr).2⟩
        case u => exact (m.ticks.foldl (· + ·) 0 + (rows / calculationShare - m.ticks.foldl (· + ·) 0) - m.ticks.foldl (· + ·) 0) /
            (rows / calculationShare) * 100
        · congr 1
          simp only [reportsFrom, List.cons.injEq, Report.mk.injEq, true_and, and_true]
          rw [show ∀ n t : Rat, n + (t - n) = t from by intros; grind, Rat.div_def, Rat.mul_inv_cancel _ (by grind)]
          decide +kernel

/-! ### Parallel runs with approximation, when they succeed -/

theorem concatAllW_sum {α β : Type} (g : α → Watched (List β)) : ∀ (l : List α) (out : List β),
    (∀ a ∈ l, ∀ x, (g a).out = .ok x → (∀ y ∈ (g a).ticks, 0 ≤ y) ∧ tsum (g a).ticks = x.length) →
    (concatAllW g l).out = .ok out → (concatAllW g l).Within out.length
  | [], out, _, h => by cases h; exact within_quiet _ (natCast_nonneg _)
  | a :: l, out, hg, h => by
    unfold concatAllW at h ⊢
    cases ha : (g a).out with
    | error e => simp only [Watched.bind, ha] at h; cases h
    | ok x =>
      cases hl : (concatAllW g l).out with
      | error e => simp only [Watched.bind, ha, hl] at h; cases h
      | ok y =>
        simp only [Watched.bind, ha, hl, Watched.quiet, Except.ok.injEq] at h
        subst h
        have h1 := hg a (by simp) x ha
        have h2 := concatAllW_sum g l y (fun a ha => hg a (by simp [ha])) hl
        rw [List.length_append, natCast_add']
        refine within_bind (natCast_nonneg _) ⟨h1.1, rat_le_of_eq h1.2⟩ fun x' hx' => ?_
        exact within_bind_quiet h2

theorem gatherW_ok {order : Nat → List Nat} {results : List (Except PyErr (List MRow))} {out : List MRow}
    (h : (gatherW order results).out = .ok out) : (gatherW order results).Within out.length := by
  unfold gatherW at h ⊢
  split at h
  · cases h
  · rename_i hne
    rw [if_neg hne]
    refine concatAllW_sum _ _ _ ?_ h
    intro r _ x hx
    cases r with
    | error e => cases hx
    | ok rows =>
      simp only [Except.ok.injEq] at hx
      subst hx
      simp only [List.mem_singleton, tsum]
      exact ⟨fun y hy => hy ▸ natCast_nonneg _, by grind⟩

theorem concatAll_mem {α β : Type} {g : α → Except PyErr (List β)} : ∀ {l : List α} {out : List β},
    concatAll g l = .ok out → ∀ y ∈ out, ∃ a ∈ l, ∃ x, g a = .ok x ∧ y ∈ x
  | [], out, h, y, hy => by cases h; cases hy
  | a :: l, out, h, y, hy => by
    simp only [concatAll] at h
    cases ha : g a with
    | error e => rw [ha] at h; cases h
    | ok x =>
      rw [ha] at h
      cases hl : concatAll g l with
      | error e => rw [hl] at h; cases h
      | ok z =>
        rw [hl] at h
        cases h
        rcases List.mem_append.mp hy with hy | hy
        · exact ⟨a, by simp, x, ha, hy⟩
        · obtain ⟨b, hb, w, hw, hyw⟩ := concatAll_mem hl y hy
          exact ⟨b, by simp [hb], w, hw, hyw⟩

theorem groupMatrixApprox_mem {c : Call} {window : Option Window} {pre : PTrie} {t : Int} {grp : List TRow} {out : List MRow}
    (h : groupMatrixApprox c window pre t grp = .ok out) : ∀ y ∈ out, ∃ r ∈ grp, y.id = r.id ∧ y.time = r.time := by
  unfold groupMatrixApprox at h
  dsimp only at h
  split at h
  · cases h
  · split at h
    · cases h
    · cases h
      intro y hy
      rw [(isort_perm _ _).mem_iff, List.mem_flatMap] at hy
      obtain ⟨r, hr, hy⟩ := hy
      refine ⟨r, hr, ?_⟩
      split at hy
      · rw [List.mem_singleton] at hy; subst hy; exact ⟨rfl, rfl⟩
      · obtain ⟨x, _, rfl⟩ := List.mem_map.mp hy; exact ⟨rfl, rfl⟩

theorem pieces_mem {size : Option Nat} {gs ps : List (Int × List TRow)} (h : pieces size gs = .ok ps) :
    ∀ p ∈ ps, ∃ g ∈ gs, ∀ r ∈ p.2, r ∈ g.2 := by
  unfold pieces at h
  cases size with
  | none => cases h; exact fun p hp => ⟨p, hp, fun _ h => h⟩
  | some k =>
    intro p hp
    obtain ⟨g, hg, _, hs⟩ := chunkGroups_mem h p hp
    exact ⟨g, hg, fun r hr => hs.subset hr⟩

theorem groupByKey_sub {α : Type} {key : α → Int} {rows : List α} {g : Int × List α} (h : g ∈ groupByKey key rows) :
    ∀ r ∈ g.2, r ∈ rows := by
  intro r hr
  exact ((groupByKey_perm key rows).mem_iff).mp (List.mem_flatMap.mpr ⟨g, h, hr⟩)

theorem binMatrix_mem {c : Call} {now : Int} {size : Option Nat} {b : Int} {rows : List TRow} {out : List MRow}
    (h : binMatrix c now size b rows = .ok out) : ∀ y ∈ out, ∃ r ∈ rows, y.id = r.id ∧ y.time = r.time := by
  unfold binMatrix at h
  dsimp only at h
  split at h
  · cases h
  · split at h
    · cases h
    · rename_i ps hps
      intro y hy
      obtain ⟨p, hp, x, hx, hyx⟩ := concatAll_mem h y hy
      obtain ⟨r, hr, h1, h2⟩ := groupMatrixApprox_mem hx y hyx
      obtain ⟨g, hg, hs⟩ := pieces_mem hps p hp
      have hr' : r ∈ rows.map (stampTarget c.passCols b) := by
        split at hg
        · rw [List.mem_singleton] at hg; subst hg; exact hs r hr
        · exact groupByKey_sub hg r (hs r hr)
      obtain ⟨r0, h0, rfl⟩ := List.mem_map.mp hr'
      exact ⟨r0, h0, h1, h2⟩

theorem calculateBinned_mem {c : Call} {now : Int} {size : Option Nat} {rows : List (Int × TRow)} {out : List MRow}
    (h : calculateBinned c now size rows = .ok out) : ∀ y ∈ out, ∃ r ∈ rows, y.id = r.2.id ∧ y.time = r.2.time := by
  unfold calculateBinned at h
  dsimp only at h
  split at h
  · cases h
  · intro y hy
    obtain ⟨g, hg, x, hx, hyx⟩ := concatAll_mem h y hy
    obtain ⟨r, hr, h1⟩ := binMatrix_mem hx y hyx
    obtain ⟨r0, h0, rfl⟩ := List.mem_map.mp hr
    exact ⟨r0, groupByKey_sub hg r0 h0, h1⟩

theorem refill_mem {bs : List Int} {rows : List TRow} : ∀ x ∈ refill bs rows, x.2 ∈ rows := by
  induction rows generalizing bs with
  | nil => cases bs <;> simp [refill]
  | cons r rows ih =>
    cases bs with
    | nil => simp [refill]
    | cons b bs =>
      intro x hx
      simp only [refill, List.mem_cons] at hx ⊢
      rcases hx with rfl | hx
      · exact .inl rfl
      · exact .inr (ih x hx)

theorem binRows_mem {a : Approx} {rows : List TRow} {out : List (Int × TRow)} (h : binRows a rows = .ok out) :
    ∀ x ∈ out, x.2 ∈ rows := by
  unfold binRows at h
  split at h
  · split at h
    · cases h
    · cases h; intro x hx; obtain ⟨r, hr, rfl⟩ := List.mem_map.mp hx; exact hr
  · split at h
    · cases h
    · cases h; simp
    · cases h; exact refill_mem

theorem reindexTable_nodup {cols : List String} {cut : List CutRow} {rows : List MRow} {m : Matrix}
    (h : reindexTable cols cut rows = .ok m) : (rows.map fun r => (r.id, r.time)).Nodup := by
  unfold reindexTable at h
  split at h
  · rename_i hn; exact (noDup_iff _).mp hn
  · cases h

/-- A parallel run with approximation that succeeds reports at most the number of rows. -/
theorem executeW_binned_within (merged : List Feat → Nat) (workers : Nat) (order : Nat → List Nat)
    (size : Option Nat) (total : Nat) (c : Call) (now : Int) (ap : Approx) (cut : List CutRow) (binned : List (Int × TRow))
    (hbin : binRows ap (timed cut) = .ok binned) (out : List MRow) (cols : List String) (m : Matrix)
    (ho : (executeW (.parallel workers order) size total Prod.fst binned (calculateBinnedW merged c now)).out = .ok out)
    (hm : reindexTable cols cut out = .ok m) :
    (executeW (.parallel workers order) size total Prod.fst binned (calculateBinnedW merged c now)).Within cut.length := by
  unfold executeW at ho ⊢
  dsimp only at ho ⊢
  refine within_quiet_bind (natCast_nonneg _) fun k hk => within_quiet_bind (natCast_nonneg _) fun chunks hc => ?_
  simp only [Watched.bind, Watched.quiet, hk, hc] at ho
  refine (gatherW_ok ho).mono (natCast_mono ?_)
  have hn := reindexTable_nodup hm
  rw [← List.length_map (f := fun r : MRow => (r.id, some r.time))]
  have hn' : (out.map fun r : MRow => (r.id, some r.time)).Nodup := by
    have : (out.map fun r : MRow => (r.id, some r.time)) = (out.map fun r => (r.id, r.time)).map fun p => (p.1, some p.2) := by
      rw [List.map_map]; rfl
    rw [this]
    refine List.Pairwise.map _ ?_ hn
    intro a b hab heq
    exact hab (by grind)
  rw [← List.length_map (as := cut) (f := fun r : CutRow => (r.id, r.time))]
  refine nodup_length_le hn' ?_
  intro p hp
  obtain ⟨y, hy, rfl⟩ := List.mem_map.mp hp
  rw [gatherW_out] at ho
  unfold gather at ho
  split at ho
  · cases ho
  · obtain ⟨r, hr, x, hx, hyx⟩ := concatAll_mem ho y hy
    obtain ⟨i, _, hi⟩ := List.mem_filterMap.mp hr
    have hr' := List.mem_of_getElem? hi
    obtain ⟨ch, hch, rfl⟩ := List.mem_map.mp hr'
    simp only [id, calculateBinnedW_out] at hx
    obtain ⟨b, hb, h1, h2⟩ := calculateBinned_mem hx y hyx
    obtain ⟨g, hg, _, hs⟩ := chunkGroups_mem hc ch hch
    have hb' := binRows_mem hbin b (groupByKey_sub hg b (hs.subset hb))
    unfold timed at hb'
    obtain ⟨k, hk, hkb⟩ := List.mem_filterMap.mp hb'
    refine List.mem_map.mpr ⟨k, hk, ?_⟩
    cases ht : k.time with
    | none => simp [ht] at hkb
    | some t =>
      simp only [ht, Option.map_some, Option.some.injEq] at hkb
      rw [h1, h2, ← hkb]

end FT
