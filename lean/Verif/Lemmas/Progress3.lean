import Verif.Lemmas.Progress2
import Verif.Props.FeatureGroup
/-!
# The reports of one calculator add up to at most one
-/
namespace FT
open Watched

theorem eachTick_within {β : Type} (m : Meter) (g : Feat → Except PyErr β) (fs : List Feat) :
    (∀ x ∈ eachTick m g fs, 0 ≤ x) ∧ tsum (eachTick m g fs) ≤ (fs.length : Rat) / m.num := by
  induction fs with
  | nil => exact ⟨by simp [eachTick], by simpa [eachTick, tsum] using share_nonneg 0 m.num⟩
  | cons f fs ih =>
    unfold eachTick
    split
    · refine ⟨?_, ?_⟩
      · intro x hx
        rcases List.mem_cons.mp hx with rfl | hx
        · exact share_nonneg 1 m.num
        · exact ih.1 x hx
      · simp only [tsum, List.length_cons]
        rw [Nat.add_comm, share_add]
        have h := ih.2
        have e : ((1 : Nat) : Rat) = 1 := rfl
        rw [e]
        grind
    · exact ⟨by simp, by simpa [tsum] using share_nonneg (f :: fs).length m.num⟩

theorem const_within {α : Type} (n : Nat) (l : List α) :
    (∀ x ∈ l.map fun _ => (1 : Rat) / n, 0 ≤ x) ∧ tsum (l.map fun _ => (1 : Rat) / n) ≤ (l.length : Rat) / n := by
  refine ⟨?_, ?_⟩
  · intro x hx
    obtain ⟨_, _, rfl⟩ := List.mem_map.mp hx
    exact share_nonneg 1 n
  · rw [tsum_const, share_one]; exact Rat.le_refl

theorem single_within (k n : Nat) : (∀ x ∈ [(k : Rat) / n], 0 ≤ x) ∧ tsum [(k : Rat) / n] = (k : Rat) / n := by
  refine ⟨?_, ?_⟩
  · intro x hx
    rw [List.mem_singleton] at hx
    subst hx
    exact share_nonneg k n
  · simp only [tsum]; grind

theorem filter_split {α : Type} (p : α → Bool) (l : List α) :
    (l.filter fun a => !p a).length + (l.filter p).length = l.length := by
  induction l with
  | nil => rfl
  | cons a l ih =>
    by_cases h : p a = true
    · simp only [List.filter_cons, h, Bool.not_true, if_true, List.length_cons, Bool.false_eq_true, if_false]; omega
    · simp only [Bool.not_eq_true] at h
      simp only [List.filter_cons, h, Bool.not_false, if_true, List.length_cons, Bool.false_eq_true, if_false]; omega

theorem aggRowsTicks_within (m : Meter) (hm : ∀ fs, m.merged fs ≤ fs.length) (fl : List Feat) :
    (∀ x ∈ aggRowsTicks m fl, 0 ≤ x) ∧ tsum (aggRowsTicks m fl) ≤ (fl.length : Rat) / m.num := by
  unfold aggRowsTicks
  dsimp only
  have key : ∀ (l : List Feat) (k : Nat), k ≤ l.length →
      (∀ x ∈ (if l.isEmpty then [] else [(k : Rat) / m.num]), 0 ≤ x) ∧
      tsum (if l.isEmpty then [] else [(k : Rat) / m.num]) ≤ (l.length : Rat) / m.num := by
    intro l k hk
    split
    · exact ⟨by simp, by simpa [tsum] using share_nonneg l.length m.num⟩
    · have := single_within k m.num
      exact ⟨this.1, by rw [this.2]; exact part_mono hk _⟩
  have h1 := key (fl.filter fun f => !byAgg f) _ (Nat.le_refl _)
  have h2 := key (fl.filter byAgg) _ (hm _)
  refine ⟨?_, ?_⟩
  · intro x hx
    rcases List.mem_append.mp hx with h | h
    · exact h1.1 x h
    · exact h2.1 x h
  · rw [tsum_append, ← filter_split byAgg fl, share_add]
    have := h1.2
    have := h2.2
    grind

theorem aggTicks_within (m : Meter) (hm : ∀ fs, m.merged fs ≤ fs.length) (env : Env) (idx : String) (fs : List Feat)
    (frame : Table) (dfs : DTrie) :
    (∀ x ∈ aggTicks m env idx fs frame dfs, 0 ≤ x) ∧ tsum (aggTicks m env idx fs frame dfs) ≤ (fs.length : Rat) / m.num := by
  have nil : ∀ k : Nat, (∀ x ∈ ([] : List Rat), 0 ≤ x) ∧ tsum [] ≤ (k : Rat) / m.num :=
    fun k => ⟨by simp, by simpa [tsum] using share_nonneg k m.num⟩
  cases fs with
  | nil => exact nil 0
  | cons test fs =>
    unfold aggTicks
    dsimp only
    have hfl : ((test :: fs).filter fun f => f.names.any fun n => !frame.cols.contains n).length ≤ (test :: fs).length :=
      List.length_filter_le _ _
    split
    · have := single_within 0 m.num
      exact ⟨this.1, Rat.le_trans (rat_le_of_eq this.2) (part_mono (Nat.zero_le _) _)⟩
    · split
      · exact nil _
      · split
        · exact nil _
        · split
          · have := const_within m.num ((test :: fs).filter fun f => f.names.any fun n => !frame.cols.contains n)
            exact ⟨this.1, Rat.le_trans this.2 (part_mono hfl _)⟩
          · split
            · exact nil _
            · have := aggRowsTicks_within m hm ((test :: fs).filter fun f => f.names.any fun n => !frame.cols.contains n)
              exact ⟨this.1, Rat.le_trans this.2 (part_mono hfl _)⟩

theorem groupW_within (m : Meter) (hm : ∀ fs, m.merged fs ≤ fs.length) (env : Env) (idx : String) (fs : List Feat)
    (t : Table) (dfs : DTrie) : (groupW m env idx fs t dfs).Within ((fs.length : Rat) / m.num) := by
  cases fs with
  | nil => exact ⟨by simp [groupW], by simpa [groupW, tsum] using share_nonneg 0 m.num⟩
  | cons f fs =>
    unfold groupW
    dsimp only
    have hs := single_within (f :: fs).length m.num
    cases hk : f.kind with
    | identity v => exact within_after _ hs.1 (rat_le_of_eq hs.2)
    | direct r => exact within_after _ hs.1 (rat_le_of_eq hs.2)
    | agg a b c d => exact aggTicks_within m hm env idx (f :: fs) t dfs
    | trans p =>
      show (∀ x ∈ transTicks m env (f :: fs) t, 0 ≤ x) ∧ tsum (transTicks m env (f :: fs) t) ≤ _
      unfold transTicks
      split
      · exact const_within _ _
      · exact eachTick_within _ _ _
    | groupby p =>
      show (∀ x ∈ groupbyTicks m env idx (f :: fs) t, 0 ≤ x) ∧ tsum (groupbyTicks m env idx (f :: fs) t) ≤ _
      unfold groupbyTicks
      dsimp only
      split
      · exact ⟨hs.1, rat_le_of_eq hs.2⟩
      · split
        · exact ⟨by simp, by simpa [tsum] using share_nonneg (f :: fs).length m.num⟩
        · exact eachTick_within _ _ _
    | slice n => exact ⟨by simp, by simpa [tsum] using share_nonneg (f :: fs).length m.num⟩

theorem groupsW_within (m : Meter) (hm : ∀ fs, m.merged fs ≤ fs.length) (env : Env) (idx : String) (dfs : DTrie)
    (gs : List (List Feat)) (t : Table) : (groupsW m env idx dfs gs t).Within ((gs.flatten.length : Rat) / m.num) := by
  induction gs generalizing t with
  | nil => exact within_quiet _ (share_nonneg 0 _)
  | cons g gs ih =>
    unfold groupsW
    rw [List.flatten_cons, List.length_append, share_add]
    exact within_bind (share_nonneg _ _) (groupW_within m hm env idx g t dfs) fun x _ => ih x

theorem featuresW_within (m : Meter) (hm : ∀ fs, m.merged fs ≤ fs.length) (env : Env) (idx : String) (fs : List Feat)
    (t : Table) (dfs : DTrie) : (featuresW m env idx fs t dfs).Within ((fs.length : Rat) / m.num) := by
  have := groupsW_within m hm env idx dfs (groupFeatures env.rels fs) t
  rwa [(C23_partition env.rels fs).1.length_eq] at this

theorem findFeats_length {byName : String → Option Feat} : ∀ {ns : List String} {fs : List Feat},
    findFeats byName ns = .ok fs → fs.length = ns.length
  | [], fs, h => by cases h; rfl
  | n :: ns, fs, h => by
    simp only [findFeats] at h
    cases hb : byName n with
    | none => rw [hb] at h; simp at h
    | some f =>
      rw [hb] at h
      cases hr : findFeats byName ns with
      | error e => rw [hr] at h; simp at h
      | ok gs =>
        rw [hr] at h
        cases h
        simp [findFeats_length hr]

theorem fullStepW_within (m : Meter) (hm : ∀ fs, m.merged fs ≤ fs.length) (env : Env) (byName : String → Option Feat)
    (idx : String) (v : NodeVal) (fv : String) (fvals : List Val) (df : Table) (fulls : DTrie) :
    (fullStepW m env byName idx v fv fvals df fulls).Within ((v.full.length : Rat) / m.num) := by
  unfold fullStepW
  split
  · refine within_quiet_bind (share_nonneg _ _) fun fs hfs => ?_
    have h := featuresW_within m hm env idx fs df fulls
    rw [findFeats_length hfs] at h
    have := within_bind (b := 0) (k := fun df1 => (quiet (filterDf fv fvals df1)).bind fun df2 => quiet (.ok (df2, some df1)))
      Rat.le_refl h fun x _ => within_quiet_bind Rat.le_refl fun _ _ => within_quiet _ Rat.le_refl
    rwa [show (v.full.length : Rat) / m.num + 0 = (v.full.length : Rat) / m.num from by grind] at this
  · exact within_quiet _ (share_nonneg _ _)

theorem finishNodeW_within (m : Meter) (hm : ∀ fs, m.merged fs ≤ fs.length) (env : Env) (byName : String → Option Feat)
    (e : String) (v : NodeVal) (fv : String) (fvals : List Val) (df : Table) (pre : Option PreTable)
    (kids : List (Edge × DTrie × DTrie)) :
    (finishNodeW m env byName e v fv fvals df pre kids).Within (((v.full.length + v.notFull.length : Nat) : Rat) / m.num) := by
  unfold finishNodeW
  dsimp only
  rw [share_add]
  have z : (after (env.getEnt e) [0]).Within (0 : Rat) :=
    within_after _ (by simp) (by simp only [tsum]; grind)
  have n1 := share_nonneg v.full.length m.num
  have n2 := share_nonneg v.notFull.length m.num
  refine Within.mono (a := 0 + ((v.full.length : Rat) / m.num + (v.notFull.length : Rat) / m.num)) ?_ (by grind)
  refine within_bind (by grind) z fun ent _ => ?_
  refine within_bind n2 (fullStepW_within m hm env byName ent.index v fv fvals _ _) fun r _ => ?_
  refine within_quiet_bind n2 fun fs hfs => ?_
  have h := featuresW_within m hm env ent.index fs r.1 (.node none (kids.map fun k => (k.1, k.2.1)))
  rw [findFeats_length hfs] at h
  exact within_bind_quiet h

/-- The number of features in a list of entries of a plan. -/
def entryCount (l : List (List Edge × NodeVal)) : Nat := (l.map fun pv => pv.2.full.length + pv.2.notFull.length).sum

theorem entryCount_append (a b : List (List Edge × NodeVal)) : entryCount (a ++ b) = entryCount a + entryCount b := by
  simp [entryCount]

theorem entryCount_prefix (k : Edge) (l : List (List Edge × NodeVal)) :
    entryCount (l.map fun pv => (k :: pv.1, pv.2)) = entryCount l := by
  simp [entryCount, List.map_map, Function.comp_def]

mutual
theorem nodeW_within (m : Meter) (hm : ∀ fs, m.merged fs ≤ fs.length) (env : Env) (byName : String → Option Feat) :
    ∀ (t : FTrie) (pre : PTrie) (e fv : String) (fvals : List Val) (pd : Option ParentData),
    (nodeW m env byName t pre e fv fvals pd).Within ((entryCount t.toList : Rat) / m.num)
  | .node v cs, pre, e, fv, fvals, pd => by
    unfold nodeW
    have hc : entryCount (Trie.toList (.node v cs)) = entryCount (Trie.toListChildren cs) + (v.full.length + v.notFull.length) := by
      simp only [Trie.toList, entryCount, List.map_cons, List.sum_cons]; omega
    rw [hc, share_add]
    have z : (after (prepNode env byName e v fv fvals pd) [0, 0]).Within (0 : Rat) :=
      within_after _ (by simp) (by simp only [tsum]; grind)
    have n1 := share_nonneg (entryCount (Trie.toListChildren cs)) m.num
    have n2 := share_nonneg (v.full.length + v.notFull.length) m.num
    refine Within.mono (a := 0 + ((entryCount (Trie.toListChildren cs) : Rat) / m.num +
      ((v.full.length + v.notFull.length : Nat) : Rat) / m.num)) ?_ (by grind)
    refine within_bind (by grind) z fun p _ => ?_
    refine within_quiet_bind (by grind) fun filtered _ => ?_
    exact within_bind n2 (kidsW_within m hm env byName cs pre p.1 filtered p.2) fun kids _ => finishNodeW_within m hm ..
theorem kidsW_within (m : Meter) (hm : ∀ fs, m.merged fs ≤ fs.length) (env : Env) (byName : String → Option Feat) :
    ∀ (cs : List (Edge × FTrie)) (pre : PTrie) (df filtered : Table) (newAnc : List String),
    (kidsW m env byName cs pre df filtered newAnc).Within ((entryCount (Trie.toListChildren cs) : Rat) / m.num)
  | [], _, _, _, _ => by unfold kidsW; exact within_quiet _ (share_nonneg _ _)
  | (edge, sub) :: rest, pre, df, filtered, newAnc => by
    unfold kidsW
    have n2 := share_nonneg (entryCount (Trie.toListChildren rest)) m.num
    rw [Trie.toListChildren, entryCount_append, entryCount_prefix, share_add]
    have n1 := share_nonneg (entryCount sub.toList) m.num
    refine within_quiet_bind (by grind) fun a _ => ?_
    refine within_bind n2 (nodeW_within m hm env byName sub _ _ _ _ _) fun r _ => ?_
    exact within_bind_quiet (kidsW_within m hm env byName rest pre df filtered newAnc)
end

theorem runW_within (merged : List Feat → Nat) (hm : ∀ fs, merged fs ≤ fs.length) (env : Env) (targets : List Feat)
    (approx : ATrie) (pre : PTrie) (e : String) (ids : List Val) :
    (runW merged env targets approx pre e ids).Within 1 := by
  unfold runW
  split
  · exact within_quiet _ (by decide)
  · refine within_quiet_bind (by decide) fun ent _ => ?_
    dsimp only
    refine within_bind_quiet ?_
    exact (nodeW_within ⟨numFeatures (buildTrie targets approx), merged⟩ hm env _ (buildTrie targets approx) pre e ent.index ids none).mono
      (share_all _)

end FT
