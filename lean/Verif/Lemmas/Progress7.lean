import Verif.Lemmas.Progress6
import Verif.Lemmas.NodePrep
import Verif.Lemmas.Run
/-!
# When the reports of one calculator add up to exactly one
-/
namespace FT
open Watched

/-- If the calculation succeeds, its reports add up to `b`. -/
def Watched.Full {α : Type} (m : Watched α) (b : Rat) : Prop := ∀ a, m.out = .ok a → tsum m.ticks = b

namespace Watched

theorem full_quiet {α : Type} (x : Except PyErr α) : (quiet x).Full 0 := fun _ _ => rfl

theorem full_after {α : Type} (x : Except PyErr α) (l : List Rat) : (after x l).Full (tsum l) := by
  intro a h
  cases x with
  | ok a => rfl
  | error e => cases h

theorem full_bind {α β : Type} {m : Watched α} {k : α → Watched β} {a b : Rat} (hm : m.Full a)
    (hk : ∀ x, m.out = .ok x → (k x).Full b) : (m.bind k).Full (a + b) := by
  intro y hy
  unfold bind at hy ⊢
  cases ho : m.out with
  | error e => rw [ho] at hy; cases hy
  | ok x =>
    rw [ho] at hy
    dsimp only at hy ⊢
    rw [tsum_append, hm x ho, hk x ho y hy]

theorem full_quiet_bind {α β : Type} {x : Except PyErr α} {k : α → Watched β} {b : Rat}
    (hk : ∀ a, x = .ok a → (k a).Full b) : ((quiet x).bind k).Full b := by
  have := full_bind (full_quiet x) hk
  rwa [show (0 : Rat) + b = b from by grind] at this

theorem full_bind_quiet {α β : Type} {m : Watched α} {k : α → Except PyErr β} {b : Rat} (hm : m.Full b) :
    (m.bind fun a => quiet (k a)).Full b := by
  have := full_bind (k := fun a => quiet (k a)) hm fun x _ => full_quiet (k x)
  rwa [show b + (0 : Rat) = b from by grind] at this

theorem full_scale {α : Type} {m : Watched α} {b : Rat} (r : Rat) (h : m.Full b) : (m.scale r).Full (b * r) := by
  intro a ha
  show tsum (m.ticks.map fun x => x * r) = b * r
  rw [tsum_scale, h a ha]

theorem Full.cast {α : Type} {m : Watched α} {a b : Rat} (h : m.Full a) (e : a = b) : m.Full b := e ▸ h

end Watched

theorem single_share (k n : Nat) : tsum [(k : Rat) / n] = (k : Rat) / n := (single_within k n).2

theorem eachTick_full {α : Type} (m : Meter) (g : Feat → Except PyErr (List α)) : ∀ (fs : List Feat) (out : List α),
    concatCells g fs = .ok out → tsum (eachTick m g fs) = (fs.length : Rat) / m.num
  | [], _, _ => by simp only [eachTick, tsum, List.length_nil, Rat.div_def]; grind
  | f :: fs, out, h => by
    simp only [concatCells] at h
    unfold eachTick
    cases hf : g f with
    | error e => rw [hf] at h; cases h
    | ok a =>
      rw [hf] at h
      cases hr : concatCells g fs with
      | error e => rw [hr] at h; cases h
      | ok b =>
        dsimp only
        simp only [tsum, List.length_cons]
        rw [eachTick_full m g fs b hr, Nat.add_comm, share_add]
        rfl

theorem aggRowsTicks_full (m : Meter) (hm : ∀ fs, m.merged fs = fs.length) (fl : List Feat) :
    tsum (aggRowsTicks m fl) = (fl.length : Rat) / m.num := by
  unfold aggRowsTicks
  dsimp only
  have key : ∀ (l : List Feat), tsum (if l.isEmpty then [] else [(l.length : Rat) / m.num]) = (l.length : Rat) / m.num := by
    intro l
    split
    · rename_i h
      rw [List.isEmpty_iff.mp h]
      simp only [tsum, List.length_nil, Rat.div_def]; grind
    · exact single_share _ _
  rw [tsum_append, hm, key, key, ← share_add, filter_split]

/-- Does the feature aggregate? -/
def isAggKind (f : Feat) : Prop := ∃ path prim prev un, f.kind = .agg path prim prev un

theorem aggTicks_full (m : Meter) (hm : ∀ fs, m.merged fs = fs.length) (env : Env) (idx : String) (test : Feat) (fs : List Feat)
    (frame : Table) (dfs : DTrie) (hnew : ∀ f ∈ test :: fs, ∃ n ∈ f.names, n ∉ frame.cols) (out : Table)
    (h : calcAgg env idx (test :: fs) frame dfs = .ok out) :
    tsum (aggTicks m env idx (test :: fs) frame dfs) = ((test :: fs).length : Rat) / m.num := by
  have hfl : ((test :: fs).filter fun f => f.names.any fun n => !frame.cols.contains n) = test :: fs := by
    apply List.filter_eq_self.mpr
    intro f hf
    obtain ⟨n, hn, hc⟩ := hnew f hf
    simp only [List.any_eq_true, Bool.not_eq_true', List.contains_eq_mem, decide_eq_false_iff_not]
    exact ⟨n, hn, hc⟩
  unfold calcAgg at h
  unfold aggTicks
  dsimp only at h ⊢
  rw [hfl] at h ⊢
  rw [if_neg (by simp)] at h ⊢
  cases hv : (Trie.nodeAt none test.path dfs).value with
  | none => rw [hv] at h; cases h
  | some base =>
    rw [hv] at h
    dsimp only at h ⊢
    cases hw : whereFilter test base with
    | error e => rw [hw] at h; cases h
    | ok base' =>
      rw [hw] at h
      dsimp only at h ⊢
      by_cases hb : base'.rows.isEmpty = true
      · rw [if_pos hb, tsum_const, share_one]
      · rw [if_neg hb] at h ⊢
        rw [h]
        exact aggRowsTicks_full m hm _

theorem groupW_full (m : Meter) (hm : ∀ fs, m.merged fs = fs.length) (env : Env) (idx : String) (fs : List Feat)
    (t : Table) (dfs : DTrie) (hkind : ∀ f ∈ fs, ∀ g ∈ fs, isAggKind f → isAggKind g)
    (hnew : ∀ f ∈ fs, isAggKind f → ∃ n ∈ f.names, n ∉ t.cols) :
    (groupW m env idx fs t dfs).Full ((fs.length : Rat) / m.num) := by
  cases fs with
  | nil =>
    intro a _
    simp only [groupW, tsum, List.length_nil, Rat.div_def]; grind
  | cons f fs =>
    unfold groupW
    dsimp only
    have hs := single_share (f :: fs).length m.num
    cases hk : f.kind with
    | identity v => exact (full_after _ _).cast hs
    | direct r => exact (full_after _ _).cast hs
    | agg a b c d =>
      intro out ho
      have ha : isAggKind f := ⟨a, b, c, d, hk⟩
      refine aggTicks_full m hm env idx f fs t dfs ?_ out ?_
      · intro g hg
        exact hnew g hg (hkind f (by simp) g hg ha)
      · simpa only [calcGroup, hk] using ho
    | trans p =>
      intro out ho
      simp only [calcGroup, hk] at ho
      show tsum (transTicks m env (f :: fs) t) = _
      unfold calcTrans at ho
      unfold transTicks
      by_cases hb : t.rows.isEmpty = true
      · rw [if_pos hb, tsum_const, share_one]
      · rw [if_neg hb] at ho ⊢
        cases hc : concatCells (transCells env t) (f :: fs) with
        | error e => rw [hc] at ho; cases ho
        | ok cells => exact eachTick_full m _ _ cells hc
    | groupby p =>
      intro out ho
      simp only [calcGroup, hk] at ho
      show tsum (groupbyTicks m env idx (f :: fs) t) = _
      unfold calcGroupby at ho
      unfold groupbyTicks
      dsimp only at ho ⊢
      by_cases hb : (setDefaults (f :: fs) t).rows.isEmpty = true
      · rw [if_pos hb]; exact hs
      · rw [if_neg hb] at ho ⊢
        cases hg : (f :: fs).head?.bind fun f => f.bases.getLast? with
        | none => rw [hg] at ho; cases ho
        | some grp =>
          rw [hg] at ho
          dsimp only at ho ⊢
          cases hc : concatCells (groupCells env idx grp.name (setDefaults (f :: fs) t)) (f :: fs) with
          | error e => rw [hc] at ho; cases ho
          | ok cells => exact eachTick_full m _ _ cells hc
    | slice n =>
      intro out ho
      simp only [calcGroup, hk] at ho
      cases ho

/-! ### Columns -/

theorem concatCells_names {env : Env} {t : Table} : ∀ {fs : List Feat} {cells : List (String × List Val)},
    concatCells (transCells env t) fs = .ok cells → ∀ c ∈ cells.map Prod.fst, c ∈ fs.flatMap Feat.names
  | [], cells, h, c, hc => by cases h; cases hc
  | f :: fs, cells, h, c, hc => by
    simp only [concatCells] at h
    cases hf : transCells env t f with
    | error e => rw [hf] at h; cases h
    | ok a =>
      rw [hf] at h
      cases hr : concatCells (transCells env t) fs with
      | error e => rw [hr] at h; cases h
      | ok b =>
        rw [hr] at h
        cases h
        rw [List.map_append, List.mem_append] at hc
        rw [List.flatMap_cons, List.mem_append]
        rcases hc with hc | hc
        · left
          unfold transCells at hf
          split at hf
          · cases hf
          · split at hf
            · dsimp only at hf
              split at hf
              · split at hf
                · cases hf
                  obtain ⟨x, hx, rfl⟩ := List.mem_map.mp hc
                  exact (List.of_mem_zip hx).1
                · cases hf
              · cases hf
            · cases hf
        · exact .inr (concatCells_names hr c hc)

theorem lastPerBase_sub : ∀ (l : List (String × String)), ∀ x ∈ lastPerBase l, x ∈ l
  | [], x, h => by cases h
  | nb :: l, x, h => by
    unfold lastPerBase at h
    split at h
    · exact List.mem_cons_of_mem _ (lastPerBase_sub l x h)
    · rcases List.mem_cons.mp h with rfl | h
      · simp
      · exact List.mem_cons_of_mem _ (lastPerBase_sub l x h)

theorem calcGroup_cols {env : Env} {idx : String} {fs : List Feat} {t t' : Table} {dfs : DTrie}
    (h : calcGroup env idx fs t dfs = .ok t') : ∀ c ∈ t'.cols, c ∈ t.cols ∨ c ∈ fs.flatMap Feat.names := by
  cases fs with
  | nil => cases h; exact fun c hc => .inl hc
  | cons f fs =>
    simp only [calcGroup] at h
    cases hk : f.kind with
    | identity v =>
      simp only [hk, calcIdentity] at h
      split at h
      · cases h; exact fun c hc => .inl hc
      · cases h
    | direct r =>
      simp only [hk, calcDirect] at h
      split at h
      · split at h
        · cases h
        · split at h
          · cases h
            intro c hc
            rcases (mem_addCols _ _ _).mp hc with hc | hc
            · exact .inl hc
            · right
              obtain ⟨x, hx, rfl⟩ := List.mem_map.mp hc
              obtain ⟨g, hg, hx⟩ := List.mem_flatMap.mp (lastPerBase_sub _ x hx)
              refine List.mem_flatMap.mpr ⟨g, hg, ?_⟩
              unfold directPairs at hx
              split at hx
              · exact (List.of_mem_zip (List.mem_filter.mp hx).1).1
              · cases hx
          · cases h
      · cases h
    | agg a b c d =>
      simp only [hk] at h
      unfold calcAgg at h
      dsimp only at h
      have hsub : ∀ c, c ∈ ((f :: fs).filter fun f => f.names.any fun n => !t.cols.contains n).flatMap Feat.names →
          c ∈ (f :: fs).flatMap Feat.names := by
        intro c hc
        obtain ⟨g, hg, hc⟩ := List.mem_flatMap.mp hc
        exact List.mem_flatMap.mpr ⟨g, (List.mem_filter.mp hg).1, hc⟩
      split at h
      · cases h; exact fun c hc => .inl hc
      · split at h
        · cases h
        · split at h
          · cases h
          · split at h
            · cases h
              intro c hc
              exact ((mem_addCols _ _ _).mp hc).imp id (hsub c)
            · unfold aggRows at h
              dsimp only at h
              split at h
              · split at h
                · cases h
                  intro c hc
                  exact ((mem_addCols _ _ _).mp hc).imp id (hsub c)
                · cases h
              · cases h
    | trans p =>
      simp only [hk, calcTrans] at h
      split at h
      · cases h
        intro c hc
        exact (mem_addCols _ _ _).mp hc
      · split at h
        · rename_i cells hcells
          cases h
          intro c hc
          exact ((mem_addCols _ _ _).mp hc).imp id (concatCells_names hcells c)
        · cases h
    | groupby p =>
      simp only [hk, calcGroupby] at h
      have hs : ∀ c ∈ (setDefaults (f :: fs) t).cols, c ∈ t.cols ∨ c ∈ (f :: fs).flatMap Feat.names :=
        fun c hc => (mem_addCols _ _ _).mp hc
      split at h
      · cases h; exact hs
      · split at h
        · cases h
        · split at h
          · cases h; exact hs
          · cases h
    | slice n => simp only [hk] at h; cases h

theorem groupW_out' (m : Meter) (env : Env) (idx : String) (fs : List Feat) (t : Table) (dfs : DTrie) :
    (groupW m env idx fs t dfs).out = calcGroup env idx fs t dfs := groupW_out ..

theorem groupsW_full (m : Meter) (hm : ∀ fs, m.merged fs = fs.length) (env : Env) (idx : String) (dfs : DTrie)
    (gs : List (List Feat)) : ∀ (t : Table),
    (∀ g ∈ gs, ∀ f ∈ g, ∀ f' ∈ g, isAggKind f → isAggKind f') →
    gs.flatten.Pairwise (fun f g => ∀ n ∈ f.names, n ∉ g.names) →
    (∀ f ∈ gs.flatten, isAggKind f → ∃ n ∈ f.names, n ∉ t.cols) →
    (groupsW m env idx dfs gs t).Full ((gs.flatten.length : Rat) / m.num) := by
  induction gs with
  | nil => intro t _ _ _ a _; simp only [groupsW, quiet, tsum, List.flatten_nil, List.length_nil, Rat.div_def]; grind
  | cons g gs ih =>
    intro t hk hd hn
    unfold groupsW
    rw [List.flatten_cons, List.length_append, share_add]
    rw [List.flatten_cons, List.pairwise_append] at hd
    refine full_bind (groupW_full m hm env idx g t dfs (hk g (by simp)) fun f hf => hn f (by simp [hf])) fun t' ht' => ?_
    rw [groupW_out'] at ht'
    refine ih t' (fun g' hg' => hk g' (by simp [hg'])) hd.2.1 ?_
    intro f hf ha
    obtain ⟨n, hnf, hnt⟩ := hn f (by rw [List.flatten_cons]; exact List.mem_append_right _ hf) ha
    refine ⟨n, hnf, ?_⟩
    intro hc
    rcases calcGroup_cols ht' n hc with h | h
    · exact hnt h
    · obtain ⟨f', hf', hnf'⟩ := List.mem_flatMap.mp h
      exact hd.2.2 f' hf' f hf n hnf' hnf

theorem featuresW_full (m : Meter) (hm : ∀ fs, m.merged fs = fs.length) (env : Env) (idx : String) (fs : List Feat)
    (t : Table) (dfs : DTrie) (hd : fs.Pairwise (fun f g => ∀ n ∈ f.names, n ∉ g.names))
    (hn : ∀ f ∈ fs, isAggKind f → ∃ n ∈ f.names, n ∉ t.cols) :
    (featuresW m env idx fs t dfs).Full ((fs.length : Rat) / m.num) := by
  have hp := (C23_partition env.rels fs).1
  have := groupsW_full m hm env idx dfs (groupFeatures env.rels fs) t ?_ ?_ ?_
  · rwa [hp.length_eq] at this
  · rintro g hg f hf f' hf' ⟨a, b, c, d, hk⟩
    have := className_eq (groupKey_alike env.rels fs g hg f hf f' hf').1
    rw [hk] at this
    cases hk' : f'.kind with
    | agg a b c d => exact ⟨a, b, c, d, hk'⟩
    | _ => rw [hk'] at this; exact this.elim
  · exact hp.symm.pairwise hd fun {a b} h n hb ha => h n ha hb
  · exact fun f hf => hn f (hp.mem_iff.mp hf)


/-! ### Nodes -/

/-- The names of the features of a node are new. -/
structure FeatsFresh (env : Env) (l : List Feat) : Prop where
  disj : l.Pairwise fun f g => ∀ n ∈ f.names, n ∉ g.names
  agg : ∀ f ∈ l, isAggKind f → ∃ n ∈ f.names, (∀ e, n ∉ env.keyCols e) ∧ (∀ g ∈ l, identityVar? g ≠ some n) ∧
    ∀ (r : Relationship) pn v, r.parentName? env.rels = some pn → n ≠ pn ++ "." ++ v

/-- The same for the entries of a plan; a node with features on the full entity is marked. -/
structure NodeFresh (env : Env) (byName : String → Option Feat) (v : NodeVal) : Prop where
  feats : ∀ fs gs, findFeats byName v.full = .ok fs → findFeats byName v.notFull = .ok gs → FeatsFresh env (fs ++ gs)
  mark : v.need = false → v.full = []

theorem findFeats_append {byName : String → Option Feat} : ∀ {a b : List String} {l : List Feat},
    findFeats byName (a ++ b) = .ok l → ∃ x y, findFeats byName a = .ok x ∧ findFeats byName b = .ok y ∧ l = x ++ y
  | [], b, l, h => ⟨[], l, rfl, h, rfl⟩
  | n :: a, b, l, h => by
    simp only [List.cons_append, findFeats] at h
    cases hn : byName n with
    | none => rw [hn] at h; simp at h
    | some f =>
      rw [hn] at h
      cases hr : findFeats byName (a ++ b) with
      | error e => rw [hr] at h; simp at h
      | ok rest =>
        rw [hr] at h
        cases h
        obtain ⟨x, y, hx, hy, rfl⟩ := findFeats_append hr
        exact ⟨f :: x, y, by simp only [findFeats, hn, hx], hy, rfl⟩

theorem queryByValues_cols {e : Ent} {vals : Option (List Val)} {var : Option String} {cs : List String}
    {tl : Option Int} {w : Option Window} {incl : Bool} {t : Table} (h : queryByValues e vals var (some cs) tl w incl = .ok t) :
    t.cols = cs := by
  unfold queryByValues at h
  split at h
  · simp only [Bind.bind, Except.bind] at h
    split at h
    · cases h
    · split at h
      · cases h
      · unfold selectColumns Table.select at h
        dsimp only at h
        split at h
        · cases h; rfl
        · cases h
  · cases h

theorem prepNode_fresh {env : Env} {byName : String → Option Feat} {e : String} {v : NodeVal} {fv : String} {fvals : List Val}
    {pd : Option ParentData} {df : Table} {anc : List String} (hv : NodeFresh env byName v)
    (h : prepNode env byName e v fv fvals pd = .ok (df, anc)) :
    ∃ fs gs, findFeats byName v.full = .ok fs ∧ findFeats byName v.notFull = .ok gs ∧
      (fs ++ gs).Pairwise (fun f g => ∀ n ∈ f.names, n ∉ g.names) ∧
      ∀ f ∈ fs ++ gs, isAggKind f → ∃ n ∈ f.names, n ∉ df.cols := by
  unfold prepNode at h
  split at h
  · rename_i ent fs' _ hfs
    obtain ⟨fs, gs, h1, h2, rfl⟩ := findFeats_append hfs
    have hF := hv.feats fs gs h1 h2
    refine ⟨fs, gs, h1, h2, hF.disj, ?_⟩
    intro f hf ha
    obtain ⟨n, hn, hkey, hid, hlink⟩ := hF.agg f hf ha
    refine ⟨n, hn, ?_⟩
    have hnec : n ∉ necessaryColumns env e (fs ++ gs) := by
      intro hc
      rcases List.mem_append.mp ((mem_dedup _ _).mp hc) with hc | hc
      · exact hkey e hc
      · obtain ⟨g, hg, hv⟩ := List.mem_filterMap.mp hc
        exact hid g hg hv
    split at h
    · cases h
    · rename_i q hq
      have hcols := queryByValues_cols hq
      split at h
      · cases h; rw [hcols]; exact hnec
      · split at h
        · cases h; rw [hcols]; exact hnec
        · split at h
          · rename_i pd _ df' new hadd
            cases h
            unfold addAncestors at hadd
            split at hadd
            · cases hadd
            · rename_i pn hpn
              dsimp only at hadd
              split at hadd
              · split at hadd
                · cases hadd
                · cases hadd
                  intro hc
                  rcases (mem_addCols _ _ _).mp hc with hc | hc
                  · rw [hcols] at hc; exact hnec hc
                  · obtain ⟨v, _, rfl⟩ := List.mem_map.mp hc
                    exact hlink _ pn v hpn rfl
              · cases hadd
          · cases h
  · cases h
  · cases h

theorem calcGroups_cols {env : Env} {idx : String} {dfs : DTrie} : ∀ {gs : List (List Feat)} {t t' : Table},
    calcGroups env idx dfs gs t = .ok t' → ∀ c ∈ t'.cols, c ∈ t.cols ∨ c ∈ gs.flatten.flatMap Feat.names
  | [], t, t', h, c, hc => by cases h; exact .inl hc
  | g :: gs, t, t', h, c, hc => by
    simp only [calcGroups] at h
    cases hg : calcGroup env idx g t dfs with
    | error e => rw [hg] at h; cases h
    | ok t1 =>
      rw [hg] at h
      rw [List.flatten_cons, List.flatMap_append, List.mem_append]
      rcases calcGroups_cols h c hc with h1 | h1
      · rcases calcGroup_cols hg c h1 with h2 | h2
        · exact .inl h2
        · exact .inr (.inl h2)
      · exact .inr (.inr h1)

theorem calcFeatures_cols {env : Env} {idx : String} {dfs : DTrie} {fs : List Feat} {t t' : Table}
    (h : calcFeatures env idx fs t dfs = .ok t') : ∀ c ∈ t'.cols, c ∈ t.cols ∨ c ∈ fs.flatMap Feat.names := by
  intro c hc
  refine (calcGroups_cols h c hc).imp id ?_
  intro hc
  obtain ⟨f, hf, hn⟩ := List.mem_flatMap.mp hc
  exact List.mem_flatMap.mpr ⟨f, (C23_partition env.rels fs).1.mem_iff.mp hf, hn⟩

theorem filterDf_cols {fv : String} {fvals : List Val} {t t' : Table} (h : filterDf fv fvals t = .ok t') : t'.cols = t.cols := by
  unfold filterDf at h
  split at h
  · cases h; rfl
  · cases h

theorem finishNodeW_full (m : Meter) (hm : ∀ fs, m.merged fs = fs.length) (env : Env) (byName : String → Option Feat)
    (e : String) (v : NodeVal) (fv : String) (fvals : List Val) (df : Table) (kids : List (Edge × DTrie × DTrie))
    (hmark : v.need = false → v.full = []) {fs gs : List Feat} (h1 : findFeats byName v.full = .ok fs)
    (h2 : findFeats byName v.notFull = .ok gs) (hd : (fs ++ gs).Pairwise fun f g => ∀ n ∈ f.names, n ∉ g.names)
    (hn : ∀ f ∈ fs ++ gs, isAggKind f → ∃ n ∈ f.names, n ∉ df.cols) :
    (finishNodeW m env byName e v fv fvals df none kids).Full (((v.full.length + v.notFull.length : Nat) : Rat) / m.num) := by
  unfold finishNodeW
  dsimp only
  rw [share_add]
  rw [List.pairwise_append] at hd
  have z : (after (env.getEnt e) [0]).Full (0 : Rat) := (full_after _ _).cast (by simp only [tsum]; grind)
  refine Full.cast (a := 0 + ((v.full.length : Rat) / m.num + (v.notFull.length : Rat) / m.num)) ?_ (by grind)
  refine full_bind z fun ent _ => ?_
  have hstep : (fullStepW m env byName ent.index v fv fvals (mergePre ent.index df none) (.node none (kids.map fun k => (k.1, k.2.2)))).Full
      ((v.full.length : Rat) / m.num) := by
    unfold fullStepW
    by_cases hneed : v.need = true
    · rw [if_pos hneed]
      refine full_quiet_bind fun fs' hfs' => ?_
      rw [h1] at hfs'
      cases hfs'
      rw [← findFeats_length h1]
      have hf := featuresW_full m hm env ent.index fs df (.node none (kids.map fun k => (k.1, k.2.2))) hd.1
        fun f hf => hn f (List.mem_append_left _ hf)
      refine Full.cast (full_bind hf (b := 0) fun df1 _ => ?_) (by grind)
      exact full_quiet_bind fun _ _ => full_quiet _
    · rw [if_neg hneed, hmark (by simpa using hneed)]
      refine (full_quiet _).cast ?_
      simp only [List.length_nil, Rat.div_def]; grind
  refine full_bind hstep fun r hr => ?_
  refine full_quiet_bind fun gs' hgs' => ?_
  rw [h2] at hgs'
  cases hgs'
  rw [← findFeats_length h2]
  refine full_bind_quiet (featuresW_full m hm env ent.index gs r.1 _ hd.2.1 ?_)
  intro f hf ha
  obtain ⟨n, hnf, hnd⟩ := hn f (List.mem_append_right _ hf) ha
  refine ⟨n, hnf, ?_⟩
  rw [fullStepW_out] at hr
  unfold fullStep at hr
  split at hr
  · rw [h1] at hr
    dsimp only at hr
    split at hr
    · cases hr
    · rename_i df1 hc1
      split at hr
      · rename_i df2 hf2
        cases hr
        dsimp only
        rw [filterDf_cols hf2]
        intro hc
        rcases calcFeatures_cols hc1 n hc with h | h
        · exact hnd h
        · obtain ⟨f', hf', hn'⟩ := List.mem_flatMap.mp h
          exact hd.2.2 f' hf' f hf n hn' hnf
      · cases hr
  · cases hr; exact hnd

/-- Nothing is given anywhere. -/
def NoPre (pre : PTrie) : Prop := ∀ p, (Trie.nodeAt none p pre).value = none

mutual
theorem nodeW_full (m : Meter) (hm : ∀ fs, m.merged fs = fs.length) (env : Env) (byName : String → Option Feat) :
    ∀ (t : FTrie) (pre : PTrie) (e fv : String) (fvals : List Val) (pd : Option ParentData), NoPre pre →
    (∀ pv ∈ t.toList, NodeFresh env byName pv.2) →
    (nodeW m env byName t pre e fv fvals pd).Full ((entryCount t.toList : Rat) / m.num)
  | .node v cs, pre, e, fv, fvals, pd, hpre, hv => by
    unfold nodeW
    have hc : entryCount (Trie.toList (.node v cs)) = entryCount (Trie.toListChildren cs) + (v.full.length + v.notFull.length) := by
      simp only [Trie.toList, entryCount, List.map_cons, List.sum_cons]; omega
    rw [hc, share_add]
    have z : (after (prepNode env byName e v fv fvals pd) [0, 0]).Full (0 : Rat) :=
      (full_after _ _).cast (by simp only [tsum]; grind)
    have hv0 : NodeFresh env byName v := hv ([], v) (by simp [Trie.toList])
    refine Full.cast (a := 0 + ((entryCount (Trie.toListChildren cs) : Rat) / m.num +
      ((v.full.length + v.notFull.length : Nat) : Rat) / m.num)) ?_ (by grind)
    refine full_bind z fun p hp => ?_
    refine full_quiet_bind fun filtered _ => ?_
    have hprep : prepNode env byName e v fv fvals pd = .ok (p.1, p.2) := by
      cases hq : prepNode env byName e v fv fvals pd with
      | error e => rw [hq] at hp; cases hp
      | ok q => rw [hq] at hp; cases hp; rfl
    obtain ⟨fs, gs, h1, h2, hd, hn⟩ := prepNode_fresh hv0 hprep
    refine full_bind (kidsW_full m hm env byName cs pre p.1 filtered p.2 hpre fun pv hpv => hv pv ?_) fun kids _ => ?_
    · simp only [Trie.toList, List.mem_cons]; exact .inr hpv
    · have hp0 : pre.value = none := hpre []
      rw [hp0]
      exact finishNodeW_full m hm env byName e v fv fvals p.1 kids hv0.mark h1 h2 hd hn
theorem kidsW_full (m : Meter) (hm : ∀ fs, m.merged fs = fs.length) (env : Env) (byName : String → Option Feat) :
    ∀ (cs : List (Edge × FTrie)) (pre : PTrie) (df filtered : Table) (newAnc : List String), NoPre pre →
    (∀ pv ∈ Trie.toListChildren cs, NodeFresh env byName pv.2) →
    (kidsW m env byName cs pre df filtered newAnc).Full ((entryCount (Trie.toListChildren cs) : Rat) / m.num)
  | [], _, _, _, _, _, _ => by
    unfold kidsW
    refine (full_quiet _).cast ?_
    simp only [Trie.toListChildren, entryCount, List.map_nil, List.sum_nil, Rat.div_def]; grind
  | (edge, sub) :: rest, pre, df, filtered, newAnc, hpre, hv => by
    unfold kidsW
    rw [Trie.toListChildren, entryCount_append, entryCount_prefix, share_add]
    have hsub : ∀ pv ∈ sub.toList, NodeFresh env byName pv.2 := fun pv hpv =>
      hv (edge :: pv.1, pv.2) (by rw [Trie.toListChildren]; exact List.mem_append_left _ (List.mem_map.mpr ⟨pv, hpv, rfl⟩))
    refine full_quiet_bind fun a _ => ?_
    refine full_bind (nodeW_full m hm env byName sub _ _ _ _ _ ?_ hsub) fun r _ => ?_
    · intro p
      rw [← nodeAt_append]
      exact hpre _
    · refine full_bind_quiet (kidsW_full m hm env byName rest pre df filtered newAnc hpre fun pv hpv => hv pv ?_)
      rw [Trie.toListChildren]
      exact List.mem_append_right _ hpv
end

end FT
