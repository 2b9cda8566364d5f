import Verif.Spec.Cfm
import Verif.Lemmas.Run
import Verif.Props.Chunk
/-! # Lemmas about the driver -/
namespace FT
open Spec

theorem noDup_iff {α : Type} [DecidableEq α] (l : List α) : noDup l = true ↔ l.Nodup := by
  induction l with
  | nil => simp [noDup]
  | cons a l ih => simp [noDup, ih]

theorem concatAll_perm {α β : Type} (g : α → Except PyErr (List β)) (h : α → List β) (l : List α)
    (hg : ∀ x ∈ l, ∃ y, g x = .ok y ∧ y.Perm (h x)) : ∃ out, concatAll g l = .ok out ∧ out.Perm (l.flatMap h) := by
  induction l with
  | nil => exact ⟨[], rfl, .refl _⟩
  | cons a l ih =>
    obtain ⟨y, hy, hp⟩ := hg a (by simp)
    obtain ⟨out, ho, hq⟩ := ih fun x hx => hg x (by simp [hx])
    refine ⟨y ++ out, by simp [concatAll, hy, ho], ?_⟩
    rw [List.flatMap_cons]
    exact hp.append hq

theorem flatMap_filter_perm {α : Type} (key : α → Int) (ks : List Int) (hn : ks.Nodup) (rows : List α)
    (hc : ∀ r ∈ rows, key r ∈ ks) : (ks.flatMap fun k => rows.filter fun r => key r == k).Perm rows := by
  induction ks generalizing rows with
  | nil =>
    cases rows with
    | nil => exact .refl _
    | cons r rs => exact absurd (hc r (by simp)) (by simp)
  | cons k ks ih =>
    rw [List.nodup_cons] at hn
    rw [List.flatMap_cons]
    refine List.Perm.trans ?_ (List.filter_append_perm (fun r => key r == k) rows)
    refine (List.Perm.refl _).append ?_
    have := ih hn.2 (rows.filter fun r => !(key r == k)) (by
      intro r hr
      rw [List.mem_filter] at hr
      rcases List.mem_cons.mp (hc r hr.1) with h | h
      · simp [h] at hr
      · exact h)
    refine List.Perm.trans ?_ this
    have he : (ks.flatMap fun k' => rows.filter fun r => key r == k') =
        ks.flatMap fun k' => (rows.filter fun r => !(key r == k)).filter fun r => key r == k' := by
      apply flatMap_congr'
      intro k' hk'
      rw [List.filter_filter]
      apply List.filter_congr
      intro r _
      have : k' ≠ k := by rintro rfl; exact hn.1 hk'
      by_cases h : key r = k' <;> simp [h, this]
    rw [he]

theorem groupByKey_perm {α : Type} (key : α → Int) (rows : List α) : ((groupByKey key rows).flatMap Prod.snd).Perm rows := by
  simp only [groupByKey, List.flatMap_map]
  exact flatMap_filter_perm key _ (nodup_sortedKeys _) rows fun r hr => (mem_sortedKeys _ _).mpr (List.mem_map.mpr ⟨r, hr, rfl⟩)

/-- The groups: not empty, a part of the rows, all with the key of the group. -/
theorem mem_groupByKey {α : Type} {key : α → Int} {rows : List α} {g : Int × List α} (h : g ∈ groupByKey key rows) :
    g.2 ≠ [] ∧ g.2.Sublist rows ∧ ∀ r ∈ g.2, key r = g.1 := by
  obtain ⟨k, hk, rfl⟩ := List.mem_map.mp h
  refine ⟨?_, List.filter_sublist, ?_⟩
  · obtain ⟨r, hr, rfl⟩ := List.mem_map.mp ((mem_sortedKeys _ _).mp hk)
    intro he
    have : r ∈ rows.filter fun x => key x == key r := by simp [hr]
    simp only [] at he
    rw [he] at this; cases this
  · intro r hr
    simpa using (List.mem_filter.mp hr).2

theorem groupByKey_ne_nil {α : Type} {key : α → Int} {rows : List α} (h : rows ≠ []) : groupByKey key rows ≠ [] := by
  intro he
  have := groupByKey_perm key rows
  rw [he] at this
  exact h (List.perm_nil.mp this.symm)

theorem groupByKey_nil {α : Type} (key : α → Int) : groupByKey key ([] : List α) = [] := rfl

theorem chunkGroups_sub {κ α : Type} (k : Nat) (hk : 0 < k) (gs : List (κ × List α)) :
    ∃ out, chunkGroups k gs = .ok out ∧
      (∀ c ∈ out, c.2 ≠ [] ∧ ∃ g ∈ gs, c.1 = g.1 ∧ c.2.Sublist g.2) ∧
      out.flatMap Prod.snd = gs.flatMap Prod.snd := by
  induction gs with
  | nil => exact ⟨[], rfl, by simp, rfl⟩
  | cons g gs ih =>
    obtain ⟨key, rows⟩ := g
    obtain ⟨out, ho, h1, h2⟩ := ih
    obtain ⟨cs, hcs⟩ := (chunkRows_ok_iff k rows).mpr hk
    refine ⟨(cs.map fun c => (key, c)) ++ out, by simp [chunkGroups, hcs, ho, Except.map], ?_, ?_⟩
    · intro c hc
      rcases List.mem_append.mp hc with hc | hc
      · obtain ⟨c', hc', rfl⟩ := List.mem_map.mp hc
        obtain ⟨a, b, j, hj⟩ := mem_chunkRows hcs hc'
        refine ⟨a, (key, rows), by simp, rfl, ?_⟩
        simp only [hj]
        exact (List.take_sublist _ _).trans (List.drop_sublist _ _)
      · obtain ⟨a, g, hg, h⟩ := h1 c hc
        exact ⟨a, g, by simp [hg], h⟩
    · rw [List.flatMap_append, h2, List.flatMap_cons, List.flatMap_map]
      congr 1
      have hf := flatten_chunkRows hcs
      simp only []
      conv => rhs; rw [← hf]
      rw [List.flatMap_def, List.map_id']

theorem pieces_sub (size : Option Nat) (hs : ∀ k, size = some k → 0 < k) (gs : List (Int × List TRow)) (hne : ∀ g ∈ gs, g.2 ≠ []) :
    ∃ out, pieces size gs = .ok out ∧
      (∀ c ∈ out, c.2 ≠ [] ∧ ∃ g ∈ gs, c.1 = g.1 ∧ c.2.Sublist g.2) ∧
      out.flatMap Prod.snd = gs.flatMap Prod.snd := by
  cases size with
  | none => exact ⟨gs, rfl, fun c hc => ⟨hne c hc, c, hc, rfl, .refl _⟩, rfl⟩
  | some k => exact chunkGroups_sub k (hs k rfl) gs

theorem addPass_fresh (ps : List (String × Val)) (cols : List String) (vals : List Val) (hn : (ps.map Prod.fst).Nodup)
    (hd : ∀ c ∈ ps.map Prod.fst, c ∉ cols) : addPass cols vals ps = vals ++ ps.map Prod.snd := by
  induction ps generalizing cols vals with
  | nil => simp [addPass]
  | cons p ps ih =>
    obtain ⟨c, v⟩ := p
    simp only [List.map_cons, List.nodup_cons] at hn
    have hc : c ∉ cols := hd c (by simp)
    simp only [addPass, setCell, if_neg hc, setAdd]
    rw [ih _ _ hn.2]
    · simp
    · intro c' hc' hm
      have h1 := hd c' (by simp only [List.map_cons, List.mem_cons]; exact .inr hc')
      simp only [List.contains_iff_mem, hc, if_false, List.mem_append, List.mem_singleton] at hm
      rcases hm with hm | rfl
      · exact h1 hm
      · exact hn.1 hc'

theorem withPass_fresh (pass cols : List String) (hn : pass.Nodup) (hd : ∀ c ∈ pass, c ∉ cols) : withPass cols pass = cols ++ pass := by
  unfold withPass
  induction pass generalizing cols with
  | nil => simp
  | cons c ps ih =>
    rw [List.nodup_cons] at hn
    have hc : c ∉ cols := hd c (by simp)
    rw [List.foldl_cons, ih _ hn.2]
    · simp [setAdd, hc]
    · intro c' hc' hm
      simp only [setAdd, List.contains_iff_mem, hc, if_false, List.mem_append, List.mem_singleton] at hm
      rcases hm with hm | rfl
      · exact hd c' (by simp [hc']) hm
      · exact hn.1 hc'

/-- A run over distinct ids. -/
theorem run_distinct {env : Env} {targets : List Feat} {e : String} (R : Regular env targets e) (ids : List Val)
    (hne : ids ≠ []) (hd : ids.Nodup) :
    runCalc env targets (Trie.new []) (Trie.new none) e ids = .ok (ids.map fun id => (id, answer (worldOf env) e targets id)) := by
  rw [run_ok R ids hne]
  split
  · rfl
  · rw [if_pos (hd.sublist List.filter_sublist), (dedup_eq_self ids).mpr hd]

/-- The row of the matrix for a row of the cutoff table. -/
def rowOf (c : Call) (r : TRow) : MRow :=
  ⟨r.id, r.time, answer (worldOf (c.at r.time c.env.window)) c.entity c.targets r.id ++ r.pass⟩

/-- The label of a row. -/
def TRow.label (r : TRow) : Val × Int := (r.id, r.time)

theorem nodup_ids_of_label {grp : List TRow} {t : Int} (ht : ∀ r ∈ grp, r.time = t) (hn : (grp.map TRow.label).Nodup) :
    (grp.map TRow.id).Nodup := by
  induction grp with
  | nil => simp
  | cons r rs ih =>
    simp only [List.map_cons, List.nodup_cons, List.mem_map, not_exists, not_and] at hn ⊢
    refine ⟨fun x hx hi => hn.1 x hx ?_, ih (fun x hx => ht x (by simp [hx])) hn.2⟩
    simp [TRow.label, hi, ht x (by simp [hx]), ht r (by simp)]

theorem find_id {grp : List TRow} (hn : (grp.map TRow.id).Nodup) {r : TRow} (hr : r ∈ grp) :
    grp.find? (fun x => x.id = r.id) = some r := by
  induction grp with
  | nil => cases hr
  | cons a l ih =>
    simp only [List.map_cons, List.nodup_cons, List.mem_map, not_exists, not_and] at hn
    rw [List.find?_cons]
    rcases List.mem_cons.mp hr with rfl | hr'
    · simp
    · have : a.id ≠ r.id := fun h => hn.1 r hr' h.symm
      simp only [this, decide_false]
      exact ih hn.2 hr'

/-- What the rows of a cutoff table must be like: distinct labels, passed cells for the passed columns, and features that
are regular at every time. -/
structure GoodRows (c : Call) (rows : List TRow) : Prop where
  labels : (rows.map TRow.label).Nodup
  pass : ∀ r ∈ rows, r.pass.length = c.passCols.length
  passNodup : c.passCols.Nodup
  passFresh : ∀ n ∈ c.passCols, n ∉ c.featCols
  regular : ∀ r ∈ rows, Regular (c.at r.time c.env.window) c.targets c.entity

theorem GoodRows.sub {c : Call} {rows rows' : List TRow} (h : GoodRows c rows) (hs : rows'.Sublist rows) : GoodRows c rows' :=
  ⟨h.labels.sublist (hs.map _), fun r hr => h.pass r (hs.subset hr), h.passNodup, h.passFresh, fun r hr => h.regular r (hs.subset hr)⟩

theorem groupMatrix_ok (c : Call) (t : Int) (grp : List TRow) (hne : grp ≠ []) (ht : ∀ r ∈ grp, r.time = t) (hg : GoodRows c grp) :
    ∃ out, groupMatrix c t grp = .ok out ∧ out.Perm (grp.map (rowOf c)) := by
  have hids := nodup_ids_of_label ht hg.labels
  have hp := isort_perm c.idLe (grp.map TRow.id)
  obtain ⟨r0, hr0⟩ := List.exists_mem_of_ne_nil _ hne
  have R : Regular (c.at t c.env.window) c.targets c.entity := by have := hg.regular r0 hr0; rwa [ht r0 hr0] at this
  have hrun := run_distinct R (isort c.idLe (grp.map TRow.id)) (by
    intro he; rw [he] at hp; exact hne (List.map_eq_nil_iff.mp (List.nil_perm.mp hp))) (hp.symm.nodup hids)
  unfold groupMatrix
  simp only [hrun, List.length_map, if_true]
  refine ⟨_, rfl, ?_⟩
  rw [List.map_map]
  refine (hp.map _).trans ?_
  rw [List.map_map]
  apply List.Perm.of_eq
  apply List.map_congr_left
  intro r hr
  simp only [Function.comp, rowOf, passOf, find_id hids hr]
  have hlen := hg.pass r hr
  rw [addPass_fresh]
  · rw [ht r hr]
    congr 2
    exact List.map_snd_zip (by omega)
  · rw [List.map_fst_zip (by omega)]; exact hg.passNodup
  · rw [List.map_fst_zip (by omega)]; exact hg.passFresh

theorem flatMap_map_perm {α β : Type} (F : α → β) (gs : List (Int × List α)) :
    (gs.flatMap fun g => g.2.map F) = (gs.flatMap Prod.snd).map F := by
  rw [List.map_flatMap]

theorem calculateExact_ok (c : Call) (size : Option Nat) (hs : ∀ k, size = some k → 0 < k) (rows : List TRow) (hne : rows ≠ [])
    (hg : GoodRows c rows) : ∃ out, calculateExact c size rows = .ok out ∧ out.Perm (rows.map (rowOf c)) := by
  unfold calculateExact
  have hgne : (groupByKey TRow.time rows).isEmpty = false := by
    have := groupByKey_ne_nil (key := TRow.time) hne
    simpa using this
  simp only [hgne, Bool.false_eq_true, if_false]
  have := concatAll_perm (fun g => match pieces size (groupByKey TRow.time g.2) with
    | .error e => .error e
    | .ok ps => concatAll (fun p => groupMatrix c p.1 p.2) ps) (fun g : Int × List TRow => g.2.map (rowOf c)) (groupByKey TRow.time rows) (by
      intro g hgm
      obtain ⟨_, hsub, _⟩ := mem_groupByKey hgm
      obtain ⟨ps, hps, h1, h2⟩ := pieces_sub size hs (groupByKey TRow.time g.2) fun x hx => (mem_groupByKey hx).1
      simp only [hps]
      obtain ⟨out, ho, hp⟩ := concatAll_perm (fun p : Int × List TRow => groupMatrix c p.1 p.2) (fun p => p.2.map (rowOf c)) ps (by
        intro p hpm
        obtain ⟨hpne, g', hg', he, hs'⟩ := h1 p hpm
        obtain ⟨_, hsub', htime⟩ := mem_groupByKey hg'
        exact groupMatrix_ok c p.1 p.2 hpne (fun r hr => he ▸ htime r (hs'.subset hr)) (hg.sub (hs'.trans (hsub'.trans hsub))))
      refine ⟨out, ho, hp.trans ?_⟩
      rw [flatMap_map_perm, h2]
      exact (groupByKey_perm TRow.time g.2).map _)
  obtain ⟨out, ho, hp⟩ := this
  refine ⟨out, ho, hp.trans ?_⟩
  rw [flatMap_map_perm]
  exact (groupByKey_perm TRow.time rows).map _

theorem filterMap_range_getElem {α : Type} (l : List α) : ((List.range l.length).filterMap fun i => l[i]?) = l := by
  induction l with
  | nil => rfl
  | cons a l ih =>
    rw [List.length_cons, List.range_succ_eq_map, List.filterMap_cons]
    simp only [List.getElem?_cons_zero]
    rw [List.filterMap_map]
    have : ((fun i => (a :: l)[i]?) ∘ Nat.succ) = fun i => l[i]? := by funext i; simp
    rw [this, ih]

theorem gather_ok {α : Type} (order : Nat → List Nat) (ho : ∀ n, (order n).Perm (List.range n)) (chunks : List (Int × List α))
    (hne : chunks ≠ []) (work : List α → Except PyErr (List MRow)) (F : α → MRow)
    (hw : ∀ ch ∈ chunks, ∃ out, work ch.2 = .ok out ∧ out.Perm (ch.2.map F)) :
    ∃ out, gather order (chunks.map fun ch => work ch.2) = .ok out ∧ out.Perm ((chunks.flatMap Prod.snd).map F) := by
  unfold gather
  rw [if_neg (by simpa using hne)]
  have hperm : ((order (chunks.map fun ch => work ch.2).length).filterMap fun i => (chunks.map fun ch => work ch.2)[i]?) =
      ((order chunks.length).filterMap fun i => chunks[i]?).map fun ch => work ch.2 := by
    rw [List.length_map, List.map_filterMap]
    congr 1
    funext i
    rw [List.getElem?_map]
  rw [hperm]
  have hpc : ((order chunks.length).filterMap fun i => chunks[i]?).Perm chunks := by
    have := (ho chunks.length).filterMap fun i => chunks[i]?
    rwa [filterMap_range_getElem] at this
  have hmap : ∀ l : List (Int × List α), concatAll id (l.map fun ch => work ch.2) = concatAll (fun ch => work ch.2) l := by
    intro l
    induction l with
    | nil => rfl
    | cons a l ih => simp [concatAll, ih]
  rw [hmap]
  obtain ⟨out, h1, h2⟩ := concatAll_perm (fun ch : Int × List α => work ch.2) (fun ch => ch.2.map F)
    ((order chunks.length).filterMap fun i => chunks[i]?) (fun ch hch => hw ch (hpc.subset hch))
  refine ⟨out, h1, h2.trans ?_⟩
  rw [flatMap_map_perm]
  exact (hpc.flatMap_right _).map _

theorem parallelSize_ok (workers : Nat) (hw : 0 < workers) (size : Option Nat) (total : Nat) (ht : 0 < total) :
    ∃ k, parallelSize workers size total = .ok k ∧ 0 < k := by
  have h1 := C31_chunk_size 1 workers total hw
  have key : ∃ k, handleChunkSize 1 workers total = .ok k ∧ 0 < k := by
    by_cases h : workers = 1
    · obtain ⟨k, hk, h2, _⟩ := h1.2.2 (by omega)
      exact ⟨k, hk, h2⟩
    · obtain ⟨k, hk, _, _, h2, _⟩ := h1.2.1 (by omega) (by omega)
      exact ⟨k, hk, h2 ht⟩
  unfold parallelSize
  split
  · exact ⟨_, rfl, by omega⟩
  · exact key

theorem execute_ok {α : Type} (exec : Exec) (hx : Spec.Fair exec) (size : Option Nat) (hs : ∀ k, size = some k → 0 < k) (total : Nat)
    (htot : 0 < total) (key : α → Int) (rows : List α) (hne : rows ≠ [])
    (work : Option Nat → List α → Except PyErr (List MRow)) (F : α → MRow)
    (hw : ∀ size' rows', (∀ k, size' = some k → 0 < k) → rows'.Sublist rows → rows' ≠ [] →
      ∃ out, work size' rows' = .ok out ∧ out.Perm (rows'.map F)) :
    ∃ out, execute exec size total key rows work = .ok out ∧ out.Perm (rows.map F) := by
  cases exec with
  | serial => exact hw size rows hs (.refl _) hne
  | parallel workers order =>
    obtain ⟨k, hk, hk0⟩ := parallelSize_ok workers hx.1 size total htot
    obtain ⟨chunks, hc, h1, h2⟩ := chunkGroups_sub k hk0 (groupByKey key rows)
    simp only [execute, hk, hc]
    have hcne : chunks ≠ [] := by
      rintro rfl
      have := groupByKey_perm key rows
      rw [← h2] at this
      exact hne (List.nil_perm.mp this)
    obtain ⟨out, ho, hp⟩ := gather_ok order hx.2 chunks hcne (work none) F (by
      intro ch hch
      obtain ⟨hn, g, hg, _, hsub⟩ := h1 ch hch
      exact hw none ch.2 (by simp) (hsub.trans (mem_groupByKey hg).2.1) hn)
    refine ⟨out, ho, hp.trans ?_⟩
    rw [h2]
    exact (groupByKey_perm key rows).map F

theorem chunkSizeOf_ok (size : Option Rat) (hs : ∀ s, size = some s → 0 < s) (total : Nat) (ht : 0 < total) :
    ∃ o, chunkSizeOf size total = .ok o ∧ ∀ k, o = some k → 0 < k := by
  cases size with
  | none => exact ⟨none, rfl, by simp⟩
  | some r =>
    have hr := hs r rfl
    have hnum : 0 < r.num := by
      have h := Rat.num_nonneg.mpr (Rat.le_of_lt hr)
      have : r.num ≠ 0 := by
        intro h0
        rw [Rat.num_eq_zero] at h0
        subst h0; exact absurd hr (by decide)
      omega
    have h1 := C31_chunk_size r.num r.den total r.den_pos
    have key : ∃ k, handleChunkSize r.num r.den total = .ok k ∧ 0 < k := by
      by_cases h : (r.den : Int) ≤ r.num
      · obtain ⟨k, hk, h2, _⟩ := h1.2.2 h
        exact ⟨k, hk, h2⟩
      · obtain ⟨k, hk, _, _, h2, _⟩ := h1.2.1 hnum (by omega)
        exact ⟨k, hk, h2 ht⟩
    obtain ⟨k, hk, h0⟩ := key
    refine ⟨some k, by simp [chunkSizeOf, hk, Except.map], ?_⟩
    intro k' hk'; cases hk'; exact h0

theorem timed_label_nodup (cut : List CutRow) (hn : (cut.map fun r => (r.id, r.time)).Nodup) : ((timed cut).map TRow.label).Nodup := by
  induction cut with
  | nil => simp [timed]
  | cons r rs ih =>
    simp only [List.map_cons, List.nodup_cons] at hn
    have ih := ih hn.2
    cases ht : r.time with
    | none =>
      have : timed (r :: rs) = timed rs := by simp [timed, ht]
      rw [this]; exact ih
    | some t =>
      have : timed (r :: rs) = ⟨r.id, t, r.pass⟩ :: timed rs := by simp [timed, ht]
      rw [this, List.map_cons, List.nodup_cons]
      refine ⟨?_, ih⟩
      intro hm
      apply hn.1
      obtain ⟨x, hx, he⟩ := List.mem_map.mp hm
      obtain ⟨y, hy, hye⟩ := List.mem_filterMap.mp hx
      cases hyt : y.time with
      | none => simp [hyt] at hye
      | some t' =>
        simp only [hyt, Option.map_some, Option.some.injEq] at hye
        subst hye
        simp only [TRow.label, Prod.mk.injEq] at he
        refine List.mem_map.mpr ⟨y, hy, ?_⟩
        rw [hyt, ht, he.1, he.2]

theorem mem_timed (cut : List CutRow) (x : TRow) : x ∈ timed cut ↔ ∃ r ∈ cut, r.id = x.id ∧ r.time = some x.time ∧ r.pass = x.pass := by
  simp only [timed, List.mem_filterMap]
  constructor
  · rintro ⟨r, hr, h⟩
    cases ht : r.time with
    | none => simp [ht] at h
    | some t =>
      simp only [ht, Option.map_some, Option.some.injEq] at h
      subst h
      exact ⟨r, hr, rfl, ht, rfl⟩
  · rintro ⟨r, hr, h1, h2, h3⟩
    refine ⟨r, hr, ?_⟩
    simp only [h2, Option.map_some, Option.some.injEq]
    cases x; simp_all

theorem reindexTable_ok (cols : List String) (cut : List CutRow) (hn : (cut.map fun r => (r.id, r.time)).Nodup)
    (G : TRow → List Val) (out : List MRow) (hp : out.Perm ((timed cut).map fun r => ⟨r.id, r.time, G r⟩)) :
    reindexTable cols cut out = .ok { cols := cols, rows := cut.map fun k => (k.id, k.time,
      match k.time with
      | some t => G ⟨k.id, t, k.pass⟩
      | none => cols.map fun _ => .null) } := by
  have hlab : (out.map fun r => (r.id, r.time)).Nodup := by
    refine ((hp.map fun r => (r.id, r.time)).symm).nodup ?_
    rw [List.map_map]
    exact timed_label_nodup cut hn
  unfold reindexTable
  rw [if_pos ((noDup_iff _).mpr hlab)]
  congr 2
  apply List.map_congr_left
  intro k hk
  cases ht : k.time with
  | none =>
    have : out.find? (fun r => r.id = k.id ∧ some r.time = (none : Option Int)) = none := by
      rw [List.find?_eq_none]; simp
    rw [this]; rfl
  | some t =>
    have hmem : (⟨k.id, t, G ⟨k.id, t, k.pass⟩⟩ : MRow) ∈ out := by
      rw [hp.mem_iff]
      exact List.mem_map.mpr ⟨⟨k.id, t, k.pass⟩, (mem_timed _ _).mpr ⟨k, hk, rfl, ht, rfl⟩, rfl⟩
    cases hf : out.find? (fun r => r.id = k.id ∧ some r.time = some t) with
    | none =>
      have := (List.find?_eq_none.mp hf) _ hmem
      simp at this
    | some m =>
      have hm := List.mem_of_find?_eq_some hf
      have he := List.find?_some hf
      simp only [decide_eq_true_eq, Option.some.injEq] at he
      have : m = ⟨k.id, t, G ⟨k.id, t, k.pass⟩⟩ := by
        have hpw := List.pairwise_map.mp (show (out.map fun r => (r.id, r.time)).Pairwise (· ≠ ·) from hlab)
        by_cases hme : m = ⟨k.id, t, G ⟨k.id, t, k.pass⟩⟩
        · exact hme
        · exfalso
          rcases List.mem_iff_getElem.mp hm with ⟨i, hi, rfl⟩
          rcases List.mem_iff_getElem.mp hmem with ⟨j, hj, hj'⟩
          rw [List.pairwise_iff_getElem] at hpw
          rcases Nat.lt_trichotomy i j with h | h | h
          · exact hpw i j hi hj h (by rw [hj', he.1, he.2])
          · subst h; exact hme hj'
          · exact hpw j i hj hi h (by rw [hj', he.1, he.2])
      subst this
      simp

/-! ### Single cutoff time -/

theorem singleMatrix_ok (c : Call) (t : Int) (ids : List Val) (R : Regular (c.at t c.env.window) c.targets c.entity)
    (hne : ids ≠ []) (hn : ids.Nodup) :
    singleMatrix c t ids = .ok (ids.map fun i => ⟨i, t, answer (worldOf (c.at t c.env.window)) c.entity c.targets i⟩) := by
  unfold singleMatrix
  rw [run_distinct R ids hne hn]
  simp [List.map_map, Function.comp_def]

theorem executeSingle_ok (exec : Exec) (hx : Spec.Fair exec) (size : Option Nat) (c : Call) (t : Int) (ids : List Val)
    (R : Regular (c.at t c.env.window) c.targets c.entity) (hne : ids ≠ []) (hn : ids.Nodup) :
    ∃ out, executeSingle exec size c t ids = .ok out ∧
      out.Perm (ids.map fun i => ⟨i, t, answer (worldOf (c.at t c.env.window)) c.entity c.targets i⟩) := by
  cases exec with
  | serial => exact ⟨_, singleMatrix_ok c t ids R hne hn, .refl _⟩
  | parallel workers order =>
    obtain ⟨k, hk, hk0⟩ := parallelSize_ok workers hx.1 size ids.length (by
      cases ids with
      | nil => exact absurd rfl hne
      | cons => simp)
    obtain ⟨cs, hcs⟩ := (chunkRows_ok_iff k ids).mpr hk0
    have hflat := flatten_chunkRows hcs
    simp only [executeSingle, hk, chunkTuple, hcs, Except.map]
    have hcne : (cs.map fun x => (t, x)) ≠ [] := by
      intro he
      rw [List.map_eq_nil_iff] at he
      subst he
      exact hne hflat.symm
    have hsame : ((cs.map fun x => (t, x)).map fun ch => singleMatrix c ch.1 ch.2) = (cs.map fun x => (t, x)).map fun ch => singleMatrix c t ch.2 := by
      rw [List.map_map, List.map_map]; rfl
    rw [hsame]
    obtain ⟨out, ho, hp⟩ := gather_ok order hx.2 (cs.map fun x => (t, x)) hcne (singleMatrix c t)
      (fun i => ⟨i, t, answer (worldOf (c.at t c.env.window)) c.entity c.targets i⟩) (by
        intro ch hch
        obtain ⟨x, hxm, rfl⟩ := List.mem_map.mp hch
        obtain ⟨a, _, j, hj⟩ := mem_chunkRows hcs hxm
        refine ⟨_, singleMatrix_ok c t x R a ?_, .refl _⟩
        rw [hj]
        exact hn.sublist ((List.take_sublist _ _).trans (List.drop_sublist _ _)))
    refine ⟨out, ho, hp.trans (.of_eq ?_)⟩
    congr 1
    rw [List.flatMap_map]
    simp only []
    rw [List.flatMap_def, List.map_id', hflat]

theorem filter_label_eq {out : List MRow} {ids : List Val} (hn : ids.Nodup) (t : Int) (G : Val → List Val)
    (hp : out.Perm (ids.map fun i => ⟨i, t, G i⟩)) (i : Val) (hi : i ∈ ids) : (out.filter fun r => r.id = i) = [⟨i, t, G i⟩] := by
  have h1 : (out.filter fun r => r.id = i).Perm ((ids.map fun i => (⟨i, t, G i⟩ : MRow)).filter fun r => r.id = i) := hp.filter _
  rw [List.filter_map] at h1
  have h2 : ids.filter ((fun r : MRow => decide (r.id = i)) ∘ fun i => ⟨i, t, G i⟩) = [i] := by
    have : ((fun r : MRow => decide (r.id = i)) ∘ fun i => (⟨i, t, G i⟩ : MRow)) = fun x => decide (x = i) := by funext x; simp
    rw [this]
    clear hp h1
    induction ids with
    | nil => cases hi
    | cons a l ih =>
      rw [List.nodup_cons] at hn
      rw [List.filter_cons]
      by_cases h : a = i
      · subst h
        simp only [decide_true, if_true]
        congr 1
        rw [List.filter_eq_nil_iff]
        intro x hx
        simp only [decide_eq_true_eq]
        rintro rfl; exact hn.1 hx
      · simp only [h, decide_false, Bool.false_eq_true, if_false]
        refine ih hn.2 ?_
        rcases List.mem_cons.mp hi with rfl | h'
        · exact absurd rfl h
        · exact h'
  rw [h2] at h1
  exact List.perm_singleton.mp h1

theorem flatMap_single {α β : Type} (l : List α) (f : α → β) : (l.flatMap fun a => [f a]) = l.map f := by
  induction l with
  | nil => rfl
  | cons a l ih => simp [List.flatMap_cons, ih]

theorem defaultIds_of (a : CfmArgs) (f0 : Feat) (fs : List Feat) (hf : a.features = f0 :: fs) (t : Int)
    (hok : EntityOk { a.env with timeLast := t } f0.entity) (hwin : a.env.window.all Window.hasNoObservations = true) : defaultIds a t = .ok ((worldAt a.env t).ids f0.entity) := by
  obtain ⟨ent, hent, hidx⟩ := hok.get
  have hent' : a.env.ent f0.entity = some ent := hent
  have hq : ∀ rows, handleTime ent ent.df.rows (some t) a.env.window a.env.includeCutoff = rows →
      queryByValues ent none none none (some t) a.env.window a.env.includeCutoff =
        rows.map fun r => { cols := ent.df.cols, rows := r } := by
    rintro rows rfl
    have hw : a.env.window.all Window.hasNoObservations = true := hwin
    rw [queryByValues, if_pos hw]
    simp only [valsToSeries, Option.map_none, selectRows, selectColumns, bind, Except.bind]
    cases handleTime ent ent.df.rows (some t) a.env.window a.env.includeCutoff <;> rfl
  have hq' : ∃ rows, handleTime ent ent.df.rows (some t) a.env.window a.env.includeCutoff = .ok rows := by
    have hw : a.env.window.all Window.hasNoObservations = true := hwin
    unfold handleTime handleTimeIndex
    simp only [bind, Except.bind]
    split
    · rename_i he
      split at he
      · cases he
      · split at he
        · cases he
        · split at he
          · cases he
          · rename_i hwo
            rw [hwo] at hw; cases hw
          · cases he
    · exact ⟨_, rfl⟩
  obtain ⟨rows, hrows⟩ := hq'
  have := hq _ hrows
  unfold defaultIds
  simp only [hf, List.head?_cons, Option.map_some, Option.getD_some, Env.getEnt, hent', hrows, worldAt, worldOf, visRows, hent, this]
  rw [hidx]
  rfl

theorem defaultIds_ok (a : CfmArgs) (f0 : Feat) (fs : List Feat) (hf : a.features = f0 :: fs) (t : Int)
    (R : RegularAt a.env a.features f0.entity t) : defaultIds a t = .ok ((worldAt a.env t).ids f0.entity) :=
  defaultIds_of a f0 fs hf t R.entityOk R.window

theorem gather_nil (order : Nat → List Nat) : gather order [] = .error .valueError := rfl

theorem execute_nil {α : Type} (exec : Exec) (size : Option Nat) (total : Nat) (key : α → Int)
    (work : Option Nat → List α → Except PyErr (List MRow)) (hw : ∀ s, ∃ e, work s [] = .error e) :
    ∃ e, execute exec size total key [] work = .error e := by
  cases exec with
  | serial => exact hw size
  | parallel workers order =>
    unfold execute
    simp only
    split
    · exact ⟨_, rfl⟩
    · exact ⟨_, rfl⟩

theorem binRows_nil {a : Approx} {b : List (Int × TRow)} (h : binRows a [] = .ok b) : b = [] := by
  unfold binRows at h
  split at h
  · split at h
    · cases h
    · cases h; rfl
  · split at h
    · cases h
    · cases h; rfl
    · cases h
      rename_i bs _
      cases bs <;> rfl

/-! ### Completion order -/

theorem concatAll_ok_iff {α β : Type} (g : α → Except PyErr (List β)) (l : List α) (out : List β) :
    concatAll g l = .ok out ↔ ∃ ys : List (List β), l.map g = ys.map .ok ∧ out = ys.flatten := by
  induction l generalizing out with
  | nil =>
    constructor
    · intro h; cases h; exact ⟨[], rfl, rfl⟩
    · rintro ⟨ys, h, rfl⟩
      have : ys = [] := by simpa using h.symm
      subst this; rfl
  | cons a l ih =>
    simp only [concatAll]
    constructor
    · intro h
      split at h
      · cases h
      · rename_i x hx
        split at h
        · cases h
        · rename_i y hy
          cases h
          obtain ⟨ys, h1, rfl⟩ := (ih y).mp hy
          exact ⟨x :: ys, by simp [hx, h1], rfl⟩
    · rintro ⟨ys, h, rfl⟩
      cases ys with
      | nil => simp at h
      | cons y ys =>
        simp only [List.map_cons, List.cons.injEq] at h
        rw [h.1]
        have := (ih ys.flatten).mpr ⟨ys, h.2, rfl⟩
        simp only [this]
        rfl

theorem perm_map_ok {β : Type} {l l' : List (Except PyErr (List β))} (hp : l.Perm l') :
    ∀ ys : List (List β), l = ys.map .ok → ∃ ys' : List (List β), l' = ys'.map .ok ∧ ys.Perm ys' := by
  induction hp with
  | nil => intro ys h; exact ⟨[], rfl, by rw [List.map_eq_nil_iff.mp h.symm]⟩
  | cons x _ ih =>
    intro ys h
    cases ys with
    | nil => simp at h
    | cons y ys =>
      simp only [List.map_cons, List.cons.injEq] at h
      obtain ⟨ys', h', hp'⟩ := ih ys h.2
      exact ⟨y :: ys', by rw [List.map_cons, h.1, h'], hp'.cons y⟩
  | swap x x' l =>
    intro ys h
    match ys, h with
    | y :: y' :: ys, h =>
      simp only [List.map_cons, List.cons.injEq] at h
      exact ⟨y' :: y :: ys, by simp [h], .swap ..⟩
    | [_], h => simp at h
    | [], h => simp at h
  | trans _ _ ih1 ih2 =>
    intro ys h
    obtain ⟨ys', h', hp'⟩ := ih1 ys h
    obtain ⟨ys'', h'', hp''⟩ := ih2 ys' h'
    exact ⟨ys'', h'', hp'.trans hp''⟩

/-- Two outcomes with the same rows up to order, or two failures. -/
def SameUpToOrder (x y : Except PyErr (List MRow)) : Prop :=
  (∃ a b, x = .ok a ∧ y = .ok b ∧ a.Perm b) ∨ ((∃ e, x = .error e) ∧ ∃ e, y = .error e)

theorem concatAll_order (l l' : List (Except PyErr (List MRow))) (hp : l.Perm l') : SameUpToOrder (concatAll id l) (concatAll id l') := by
  have key : ∀ {l l' : List (Except PyErr (List MRow))}, l.Perm l' → ∀ out, concatAll id l = .ok out → ∃ out', concatAll id l' = .ok out' ∧ out.Perm out' := by
    intro l l' hp out ho
    obtain ⟨ys, h, rfl⟩ := (concatAll_ok_iff _ _ _).mp ho
    rw [List.map_id] at h
    obtain ⟨ys', h', hp'⟩ := perm_map_ok hp ys h
    exact ⟨ys'.flatten, (concatAll_ok_iff _ _ _).mpr ⟨ys', by rw [List.map_id]; exact h', rfl⟩, hp'.flatten⟩
  cases h : concatAll id l with
  | ok out =>
    obtain ⟨out', h', hp'⟩ := key hp out h
    exact .inl ⟨out, out', rfl, h', hp'⟩
  | error e =>
    cases h' : concatAll id l' with
    | ok out' =>
      obtain ⟨out, h'', _⟩ := key hp.symm out' h'
      rw [h] at h''; cases h''
    | error e' => exact .inr ⟨⟨e, rfl⟩, e', rfl⟩

theorem gather_order (order order' : Nat → List Nat) (ho : ∀ n, (order n).Perm (List.range n)) (ho' : ∀ n, (order' n).Perm (List.range n))
    (rs : List (Except PyErr (List MRow))) : SameUpToOrder (gather order rs) (gather order' rs) := by
  unfold gather
  split
  · exact .inr ⟨⟨_, rfl⟩, _, rfl⟩
  · exact concatAll_order _ _ (((ho _).trans (ho' _).symm).filterMap _)

theorem execute_order {α : Type} (workers : Nat) (order order' : Nat → List Nat) (ho : ∀ n, (order n).Perm (List.range n))
    (ho' : ∀ n, (order' n).Perm (List.range n)) (size : Option Nat) (total : Nat) (key : α → Int) (rows : List α)
    (work : Option Nat → List α → Except PyErr (List MRow)) :
    SameUpToOrder (execute (.parallel workers order) size total key rows work) (execute (.parallel workers order') size total key rows work) := by
  unfold execute
  simp only
  split
  · exact .inr ⟨⟨_, rfl⟩, _, rfl⟩
  · split
    · exact .inr ⟨⟨_, rfl⟩, _, rfl⟩
    · exact gather_order order order' ho ho' _

theorem find_perm {α : Type} (p : α → Bool) {l l' : List α} (hp : l.Perm l') (hu : ∀ a ∈ l, ∀ b ∈ l, p a = true → p b = true → a = b) :
    l.find? p = l'.find? p := by
  cases h : l.find? p with
  | none =>
    symm
    rw [List.find?_eq_none] at h ⊢
    intro x hx; exact h x (hp.mem_iff.mpr hx)
  | some a =>
    have ha := List.mem_of_find?_eq_some h
    have hpa := List.find?_some h
    cases h' : l'.find? p with
    | none =>
      exact absurd hpa ((List.find?_eq_none.mp h') a (hp.mem_iff.mp ha))
    | some b =>
      have hb := hp.mem_iff.mpr (List.mem_of_find?_eq_some h')
      rw [hu a ha b hb hpa (List.find?_some h')]

theorem eq_of_nodup_map {α β : Type} {f : α → β} {l : List α} (hn : (l.map f).Nodup) {a b : α} (ha : a ∈ l) (hb : b ∈ l)
    (h : f a = f b) : a = b := by
  have hpw := List.pairwise_map.mp (show (l.map f).Pairwise (· ≠ ·) from hn)
  rcases List.mem_iff_getElem.mp ha with ⟨i, hi, rfl⟩
  rcases List.mem_iff_getElem.mp hb with ⟨j, hj, rfl⟩
  rw [List.pairwise_iff_getElem] at hpw
  rcases Nat.lt_trichotomy i j with h' | h' | h'
  · exact absurd h (hpw i j hi hj h')
  · subst h'; rfl
  · exact absurd h.symm (hpw j i hj hi h')

theorem reindexTable_order (cols : List String) (cut : List CutRow) {a b : List MRow} (hp : a.Perm b) :
    reindexTable cols cut a = reindexTable cols cut b := by
  unfold reindexTable
  have hl := hp.map fun r => (r.id, r.time)
  by_cases hn : (a.map fun r => (r.id, r.time)).Nodup
  · rw [if_pos ((noDup_iff _).mpr hn), if_pos ((noDup_iff _).mpr (hl.nodup hn))]
    congr 2
    apply List.map_congr_left
    intro k _
    rw [find_perm _ hp]
    intro x hx y hy h1 h2
    simp only [decide_eq_true_eq] at h1 h2
    refine eq_of_nodup_map hn hx hy ?_
    simp only [Prod.mk.injEq]
    refine ⟨h1.1.trans h2.1.symm, ?_⟩
    have := h1.2.trans h2.2.symm
    simpa using this
  · rw [if_neg (fun h => hn ((noDup_iff _).mp h)), if_neg (fun h => hn (hl.symm.nodup ((noDup_iff _).mp h)))]

theorem runCalc_labels {env : Env} {targets : List Feat} {ap : ATrie} {pre : PTrie} {e : String} {ids : List Val} {rows : List (Val × List Val)}
    (h : runCalc env targets ap pre e ids = .ok rows) : rows.map Prod.fst = ids ∨ rows.map Prod.fst = dedup ids := by
  unfold runCalc at h
  split at h
  · cases h
  · split at h
    · cases h
    · split at h
      · cases h
      · split at h
        · cases h
        · unfold collectRows at h
          split at h
          · cases h; left; rw [List.map_map]; exact List.map_id _
          · simp only at h
            split at h
            · cases h
            · split at h
              · cases h
                right
                rw [List.map_map]
                conv => rhs; rw [← List.map_id (dedup ids)]
                apply List.map_congr_left
                intro i _
                simp only [Function.comp]
                split <;> rfl
              · cases h

theorem singleMatrix_labels {c : Call} {t : Int} {ids : List Val} {rows : List MRow} (h : singleMatrix c t ids = .ok rows) (hn : ids.Nodup) :
    rows.map MRow.id = ids := by
  unfold singleMatrix at h
  split at h
  · cases h
  · rename_i rs hr
    split at h
    · cases h
      rw [List.map_map]
      have : (MRow.id ∘ fun r : Val × List Val => (⟨r.1, t, r.2⟩ : MRow)) = Prod.fst := rfl
      rw [this]
      rcases runCalc_labels hr with h | h
      · exact h
      · rw [h]; exact (dedup_eq_self ids).mpr hn
    · cases h

theorem executeSingle_labels {workers : Nat} {order : Nat → List Nat} (ho : ∀ n, (order n).Perm (List.range n)) {size : Option Nat} {c : Call} {t : Int}
    {ids : List Val} {rows : List MRow} (hn : ids.Nodup) (h : executeSingle (.parallel workers order) size c t ids = .ok rows) :
    (rows.map MRow.id).Nodup := by
  unfold executeSingle at h
  simp only at h
  split at h
  · cases h
  · split at h
    · cases h
    · rename_i k _ _ chunks hc
      unfold gather at h
      split at h
      · cases h
      · unfold chunkTuple at hc
        cases hcr : chunkRows k ids with
        | error e => rw [hcr] at hc; cases hc
        | ok cs =>
          rw [hcr] at hc
          cases hc
          obtain ⟨ys, h1, rfl⟩ := (concatAll_ok_iff _ _ _).mp h
          rw [List.map_id, List.length_map, List.length_map] at h1
          have hget : ((order cs.length).filterMap fun i => (List.map (fun ch => singleMatrix c ch.1 ch.2) (List.map (fun c => (t, c)) cs))[i]?) =
              ((order cs.length).filterMap fun i => cs[i]?).map fun x => singleMatrix c t x := by
            rw [List.map_filterMap]
            congr 1
            funext i
            rw [List.getElem?_map, List.getElem?_map]
            cases cs[i]? <;> rfl
          rw [hget] at h1
          have hpc : ((order cs.length).filterMap fun i => cs[i]?).Perm cs := by
            have := (ho cs.length).filterMap fun i => cs[i]?
            rwa [filterMap_range_getElem] at this
          have hlab : ys.flatten.map MRow.id = ((order cs.length).filterMap fun i => cs[i]?).flatten := by
            generalize hL : ((order cs.length).filterMap fun i => cs[i]?) = L at h1 hpc
            have hsub : ∀ x ∈ L, x.Nodup := by
              intro x hx
              obtain ⟨_, _, j, hj⟩ := mem_chunkRows hcr (hpc.subset hx)
              rw [hj]
              exact hn.sublist ((List.take_sublist _ _).trans (List.drop_sublist _ _))
            clear hL hpc hget h
            induction L generalizing ys with
            | nil =>
              have : ys = [] := by simpa using h1.symm
              subst this; rfl
            | cons x L ih =>
              cases ys with
              | nil => simp at h1
              | cons y ys =>
                simp only [List.map_cons, List.cons.injEq] at h1
                rw [List.flatten_cons, List.flatten_cons, List.map_append, ih ys h1.2 (fun z hz => hsub z (by simp [hz])),
                  singleMatrix_labels h1.1 (hsub x (by simp))]
          rw [hlab]
          refine (hpc.flatten).symm.nodup ?_
          rw [flatten_chunkRows hcr]; exact hn

theorem executeSingle_order (workers : Nat) (order order' : Nat → List Nat) (ho : ∀ n, (order n).Perm (List.range n))
    (ho' : ∀ n, (order' n).Perm (List.range n)) (size : Option Nat) (c : Call) (t : Int) (ids : List Val) :
    SameUpToOrder (executeSingle (.parallel workers order) size c t ids) (executeSingle (.parallel workers order') size c t ids) := by
  unfold executeSingle
  simp only
  split
  · exact .inr ⟨⟨_, rfl⟩, _, rfl⟩
  · split
    · exact .inr ⟨⟨_, rfl⟩, _, rfl⟩
    · exact gather_order order order' ho ho' _

theorem reindexIds_order (cols : List String) (ids : List Val) {a b : List MRow} (hp : a.Perm b) (hn : ids.Nodup → (a.map MRow.id).Nodup) :
    reindexIds cols ids a = reindexIds cols ids b := by
  unfold reindexIds
  split
  · rename_i hd
    have hn := hn ((noDup_iff _).mp hd)
    congr 2
    apply flatMap_congr'
    intro i _
    congr 1
    have hpf := hp.filter fun r => decide (r.id = i)
    cases hA : a.filter (fun r => decide (r.id = i)) with
    | nil =>
      rw [hA] at hpf
      exact (List.nil_perm.mp hpf).symm
    | cons x l =>
      have : l = [] := by
        cases l with
        | nil => rfl
        | cons y l =>
          exfalso
          have hx : x ∈ a.filter fun r => decide (r.id = i) := by simp [hA]
          have hy : y ∈ a.filter fun r => decide (r.id = i) := by simp [hA]
          have hpw : (a.filter fun r => decide (r.id = i)).Pairwise fun u v => u.id ≠ v.id :=
            (List.pairwise_map.mp (show (a.map MRow.id).Pairwise (· ≠ ·) from hn)).sublist List.filter_sublist
          rw [hA, List.pairwise_cons] at hpw
          have h1 := (List.mem_filter.mp hx).2
          have h2 := (List.mem_filter.mp hy).2
          simp only [decide_eq_true_eq] at h1 h2
          exact hpw.1 y (by simp) (h1.trans h2.symm)
      subst this
      rw [hA] at hpf
      exact (List.singleton_perm.mp hpf)
  · rfl

/-- Two equal results or two failures. -/
def SameOutcome (x y : Except PyErr Matrix) : Prop :=
  (∃ m, x = .ok m ∧ y = .ok m) ∨ ((∃ e, x = .error e) ∧ ∃ e, y = .error e)

theorem SameOutcome.of_eq {x y : Except PyErr Matrix} (h : x = y) : SameOutcome x y := by
  subst h
  cases x with
  | ok m => exact .inl ⟨m, rfl, rfl⟩
  | error e => exact .inr ⟨⟨e, rfl⟩, e, rfl⟩

theorem cfm_order (a : CfmArgs) (workers : Nat) (order order' : Nat → List Nat)
    (ho : ∀ n, (order n).Perm (List.range n)) (ho' : ∀ n, (order' n).Perm (List.range n)) :
    SameOutcome (calculateFeatureMatrix { a with exec := .parallel workers order }) (calculateFeatureMatrix { a with exec := .parallel workers order' }) := by
  have hfin : ∀ {x y : Except PyErr (List MRow)} (cols : List String) (cut : List CutRow), SameUpToOrder x y →
      SameOutcome (match x with
        | .error e => .error e
        | .ok rows => (reindexTable cols cut rows).map (dropTime a.inIndex)) (match y with
        | .error e => .error e
        | .ok rows => (reindexTable cols cut rows).map (dropTime a.inIndex)) := by
    intro x y cols cut h
    rcases h with ⟨u, v, rfl, rfl, hp⟩ | ⟨⟨e, rfl⟩, e', rfl⟩
    · simp only [reindexTable_order cols cut hp]
      exact .of_eq rfl
    · exact .inr ⟨⟨_, rfl⟩, _, rfl⟩
  have hbin : ∀ (passCols : List String) (cut : List CutRow) (ap : Approx), SameOutcome
      (match binRows ap (timed cut) with
        | .error e => .error e
        | .ok binned =>
          match chunkSizeOf a.chunkSize cut.length with
          | .error e => .error e
          | .ok size =>
            match execute (.parallel workers order) size cut.length Prod.fst binned (calculateBinned ⟨a.env, a.features, passCols, a.idLe⟩ a.now) with
            | .error e => .error e
            | .ok rows => (reindexTable (Call.approxCols ⟨a.env, a.features, passCols, a.idLe⟩) cut rows).map (dropTime a.inIndex))
      (match binRows ap (timed cut) with
        | .error e => .error e
        | .ok binned =>
          match chunkSizeOf a.chunkSize cut.length with
          | .error e => .error e
          | .ok size =>
            match execute (.parallel workers order') size cut.length Prod.fst binned (calculateBinned ⟨a.env, a.features, passCols, a.idLe⟩ a.now) with
            | .error e => .error e
            | .ok rows => (reindexTable (Call.approxCols ⟨a.env, a.features, passCols, a.idLe⟩) cut rows).map (dropTime a.inIndex)) := by
    intro passCols cut ap
    split
    · exact .of_eq rfl
    · split
      · exact .of_eq rfl
      · exact hfin _ cut (execute_order workers order order' ho ho' _ _ _ _ _)
  have hsingle : ∀ t ids, SameOutcome (cfmSingle { a with exec := .parallel workers order } t ids) (cfmSingle { a with exec := .parallel workers order' } t ids) := by
    intro t ids
    unfold cfmSingle
    simp only
    split
    · rename_i ap happ
      unfold cfmSingle.cfmTableAll
      simp only [happ]
      exact hbin [] _ ap
    · split
      · exact .of_eq rfl
      · rename_i size _
        rcases executeSingle_order workers order order' ho ho' size ⟨a.env, a.features, [], a.idLe⟩ t ids with ⟨u, v, hu, hv, hp⟩ | ⟨⟨e, he⟩, e', he'⟩
        · simp only [hu, hv]
          rw [reindexIds_order _ ids hp fun hn => executeSingle_labels ho hn hu]
          exact .of_eq rfl
        · simp only [he, he']
          exact .inr ⟨⟨_, rfl⟩, _, rfl⟩
  have hgo : ∀ t, SameOutcome (calculateFeatureMatrix.go { a with exec := .parallel workers order } t)
      (calculateFeatureMatrix.go { a with exec := .parallel workers order' } t) := by
    intro t
    unfold calculateFeatureMatrix.go
    simp only
    split
    · exact hsingle t _
    · have : defaultIds { a with exec := .parallel workers order } t = defaultIds { a with exec := .parallel workers order' } t := rfl
      rw [this]
      split
      · exact .of_eq rfl
      · exact hsingle t _
  unfold calculateFeatureMatrix
  simp only
  split
  · exact .of_eq rfl
  · split
    · unfold cfmTable
      simp only
      split
      · split
        · split
          · exact .of_eq rfl
          · exact hfin _ _ (execute_order workers order order' ho ho' _ _ _ _ _)
        · exact hbin _ _ _
      · exact .of_eq rfl
    · exact hgo _
    · exact hgo _

/-! ### Regular at every cutoff -/

theorem Spec.EntityOk.at {env : Env} {e : String} (h : EntityOk env e) (t : Int) : EntityOk { env with timeLast := t } e :=
  ⟨h.there, h.indexKey, h.timeKey, h.keys, h.distinct, h.present, h.notSecondary⟩

theorem Spec.RelOk.at {env : Env} {r : Relationship} (h : RelOk env r) (t : Int) : RelOk { env with timeLast := t } r :=
  ⟨h.parent.at t, h.child.at t, h.parentIndex, h.childKey, h.known⟩

theorem wellFormed_at {env : Env} {f : Feat} (h : WellFormed env f) (t : Int) : WellFormed { env with timeLast := t } f := by
  refine ⟨h.1, h.2.1, h.2.2.1.at t, ?_⟩
  have h' := h.2.2.2
  cases hk : f.kind with
  | identity v => rw [hk] at h'; exact h'
  | slice n => rw [hk] at h'; exact h'
  | direct r => rw [hk] at h'; exact ⟨h'.1.at t, h'.2⟩
  | agg path p prev b => rw [hk] at h'; exact ⟨fun r hr => (h'.1 r hr).at t, h'.2⟩
  | trans p => rw [hk] at h'; exact h'
  | groupby p => rw [hk] at h'; exact h'

/-- Only the condition on link columns depends on the cutoff. -/
theorem Spec.Regular.at {env : Env} {targets : List Feat} {e : String} (R : Regular env targets e) (t : Int)
    (hl : ∀ p f full, Planned targets noHidden p f full →
      ∀ l ∈ linksFrom env.rels (planAt (buildTrie targets (Trie.new []))) [] [] p, 1 < l.2.1.length → l.1 ∉ f.names) :
    RegularAt env targets e t :=
  ⟨R.targetEntity, R.noSlice, R.entityOk.at t, R.window, R.names, fun g hg => wellFormed_at (R.wf g hg) t, R.notKey, R.disjoint,
    R.linkNotKey, fun p f full hp l hl1 hl2 hm => absurd hm (hl p f full hp l hl1 hl2), R.paths, R.directBases⟩

end FT
