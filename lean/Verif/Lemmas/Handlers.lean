import Verif.Lemmas.Frame
/-! # The handlers compute what the features mean -/
namespace FT
open Spec

theorem concatCells_ok {α : Type} (g : Feat → Except PyErr (List α)) (c : Feat → List α) (fs : List Feat)
    (h : ∀ f ∈ fs, g f = .ok (c f)) : concatCells g fs = .ok (fs.flatMap c) := by
  induction fs with
  | nil => rfl
  | cons f fs ih =>
    simp only [concatCells, h f (by simp), ih fun f hf => h f (by simp [hf]), List.flatMap_cons]

theorem pick_getElem (ids col : List Val) (hn : ids.Nodup) (i : Nat) (id : Val) (hi : ids[i]? = some id)
    (hl : col.length = ids.length) : pick ids col id = col.getD i .null := by
  unfold pick
  induction ids generalizing col i with
  | nil => simp at hi
  | cons a ids ih =>
    cases col with
    | nil => simp at hl
    | cons b col =>
      cases i with
      | zero =>
        simp at hi; subst hi
        simp [List.lookup]
      | succ i =>
        simp only [List.getElem?_cons_succ] at hi
        have hne : (id == a) = false := by
          have := (List.nodup_cons.mp hn).1
          simp only [beq_eq_false_iff_ne, ne_eq]
          rintro rfl
          exact this (List.mem_of_getElem? hi)
        simp only [List.zip_cons_cons, List.lookup, hne, List.getD_cons_succ]
        exact ih col (List.nodup_cons.mp hn).2 i hi (by simpa using hl)

/-- A transform primitive applied to the rows of a frame gives what it gives on all ids. -/
theorem transOn_frame (w : World) (p : TransPrim) (m : Nat) (V I : List Val) (args : List (Val → List Val)) (hargs : args ≠ [])
    (hshape : TransShape p m) (hV : V.Nodup) (hI : I.Nodup) (hsub : ∀ x ∈ I, x ∈ V) (hfull : p.usesFull = true → I = V)
    (hel : p.usesFull = false → Elementwise p m) (i : Nat) (id : Val) (hi : I[i]? = some id) :
    transOn w p V args id = (p.fn w.time (args.map fun b => I.map (one b))).map fun c => c.getD i .null := by
  unfold transOn
  have hargs' : ∀ J : List Val, (args.map fun b => J.map (one b)) ≠ [] := by simp [hargs]
  have hlen : ∀ J : List Val, ∀ a ∈ (args.map fun b => J.map (one b)), a.length = J.length := by
    intro J a ha
    obtain ⟨b, _, rfl⟩ := List.mem_map.mp ha
    simp
  cases hu : p.usesFull with
  | true =>
    have hIV := hfull hu
    subst hIV
    apply List.map_congr_left
    intro c hc
    exact pick_getElem _ c hI i id hi ((hshape _ _ _ (hargs' _) (hlen _)).2 c hc)
  | false =>
    obtain ⟨g, hg⟩ := hel hu
    obtain ⟨j, hj⟩ := List.getElem?_of_mem (hsub id (List.mem_of_getElem? hi))
    rw [hg _ _ V.length (hargs' V) (hlen V), hg _ _ I.length (hargs' I) (hlen I)]
    simp only [List.map_map]
    apply List.map_congr_left
    intro k _
    simp only [Function.comp_def]
    rw [pick_getElem V _ hV j id hj (by simp)]
    have hjl := (List.getElem?_eq_some_iff.mp hj).1
    have hil := (List.getElem?_eq_some_iff.mp hi).1
    have e1 : ∀ J : List Val, ∀ x, J[x]? = some id → (args.map fun b => (J.map (one b)).getD x .null) = args.map fun b => one b id := by
      intro J x hx
      apply List.map_congr_left
      intro b _
      simp [List.getD, hx]
    simp only [List.getD, List.getElem?_map, List.getElem?_range hjl, List.getElem?_range hil, Option.map_some, Option.getD_some]
    have e2 := e1 V j hj
    have e3 := e1 I i hi
    simp only [List.getD, List.getElem?_map] at e2 e3
    rw [e2, e3]

theorem zip_unique {β : Type} {names : List String} (hn : names.Nodup) {l : List β} {n : String} {v v' : β}
    (h : (n, v) ∈ names.zip l) (h' : (n, v') ∈ names.zip l) : v' = v := by
  obtain ⟨i, hi⟩ := List.getElem?_of_mem h
  obtain ⟨j, hj⟩ := List.getElem?_of_mem h'
  rw [List.getElem?_zip_eq_some] at hi hj
  have : i = j := by
    obtain ⟨hi1, hi2⟩ := List.getElem?_eq_some_iff.mp hi.1
    obtain ⟨hj1, hj2⟩ := List.getElem?_eq_some_iff.mp hj.1
    exact (List.getElem_inj hn).mp (hi2.trans hj2.symm)
  subst this
  have := hi.2.symm.trans hj.2
  exact (Option.some.inj this).symm

/-- The columns of several features, side by side: each name has one value. -/
theorem feats_cells_unique {β : Type} (fs : List Feat) (vals : Feat → List β) (hnd : ∀ f ∈ fs, f.names.Nodup)
    (hdisj : ∀ f ∈ fs, ∀ g ∈ fs, f ≠ g → ∀ n ∈ f.names, n ∉ g.names) (f : Feat) (hf : f ∈ fs) (n : String) (v : β)
    (h : (n, v) ∈ f.names.zip (vals f)) : ∀ v', (n, v') ∈ (fs.flatMap fun f => f.names.zip (vals f)) → v' = v := by
  intro v' hv'
  obtain ⟨g, hg, hv'⟩ := List.mem_flatMap.mp hv'
  have hfg : f = g := by
    apply Classical.byContradiction
    intro hne
    exact hdisj f hf g hg hne n (List.of_mem_zip h).1 (List.of_mem_zip hv').1
  subst hfg
  exact zip_unique (hnd f hf) h hv'

/-- Putting the values of several features into a row: the columns of a feature are its values. -/
theorem put_feats (fs : List Feat) (vals : Feat → List Val) (hnd : ∀ f ∈ fs, f.names.Nodup)
    (hdisj : ∀ f ∈ fs, ∀ g ∈ fs, f ≠ g → ∀ n ∈ f.names, n ∉ g.names) (r : Row) (f : Feat) (hf : f ∈ fs)
    (hl : (vals f).length = f.names.length) :
    f.names.map (r.put (fs.flatMap fun f => f.names.zip (vals f))) = vals f := by
  apply List.ext_getElem (by simp [hl])
  intro k h1 h2
  simp only [List.getElem_map]
  have hm : (f.names[k]'(by simpa using h1), (vals f)[k]) ∈ f.names.zip (vals f) := by
    apply List.mem_of_getElem? (i := k)
    rw [List.getElem?_zip_eq_some]
    exact ⟨List.getElem?_eq_getElem _, List.getElem?_eq_getElem _⟩
  exact put_mem _ _ _ _ (List.mem_flatMap.mpr ⟨f, hf, hm⟩) (feats_cells_unique fs vals hnd hdisj f hf _ _ hm)

theorem put_feats_absent (fs : List Feat) (vals : Feat → List Val) (r : Row) (c : String) (h : ∀ f ∈ fs, c ∉ f.names) :
    r.put (fs.flatMap fun f => f.names.zip (vals f)) c = r c := by
  apply put_absent
  intro v hv
  obtain ⟨f, hf, hv⟩ := List.mem_flatMap.mp hv
  exact h f hf (List.of_mem_zip hv).1

/-- Identity features. -/
theorem calcIdentity_ok {w M idx e B L lok D I} {t : Table} (h : FrameOk w M idx e B L lok D I t) (hidx : idx ∈ B) (fs : List Feat)
    (hM : ∀ f ∈ fs, M f = meaningStep w f.info (f.bases.map M) (f.wh.map M))
    (hfs : ∀ f ∈ fs, ∃ v, f.kind = .identity v ∧ f.entity = e ∧ f.name = v ∧ f.names = [v] ∧ v ∈ B) :
    ∃ t', calcIdentity fs t = .ok t' ∧ FrameOk w M idx e B L lok (fun f => D f ∨ f ∈ fs) I t' := by
  have hall : (fs.all fun f => t.cols.contains f.name) = true := by
    simp only [List.all_eq_true, List.contains_iff_mem]
    intro f hf
    obtain ⟨v, _, _, hn, _, hv⟩ := hfs f hf
    rw [hn]; exact (h.base v hv).1
  refine ⟨t, by simp only [calcIdentity, hall, if_true], ?_⟩
  refine h.extend hidx fs t (fun _ r => r) ?_ (fun _ h => h) (fun _ h => .inl h) ?_ (fun _ _ _ _ _ => rfl) ?_
  · apply List.ext_getElem?
    intro i; simp [List.getElem?_mapIdx]
  · intro f hf n hn
    obtain ⟨v, _, _, _, hns, hv⟩ := hfs f hf
    rw [hns] at hn; simp at hn; subst hn
    exact (h.base _ hv).1
  · intro i r hr f hf
    obtain ⟨v, hk, he, _, hns, hv⟩ := hfs f hf
    rw [hM f hf, hns]
    have hk' : f.info.kind = .identity v := hk
    have he' : f.info.entity = e := he
    simp only [meaningStep, hk', he', List.map_cons, List.map_nil]
    rw [(h.base v hv).2 r (List.mem_of_getElem? hr)]

/-- Transform features. -/
theorem calcTrans_ok {env M idx e B L lok D I} {t : Table} (h : FrameOk (worldOf env) M idx e B L lok D I t) (hidx : idx ∈ B)
    (fs : List Feat) (hM : ∀ f ∈ fs, M f = meaningStep (worldOf env) f.info (f.bases.map M) (f.wh.map M))
    (hfs : ∀ f ∈ fs, ∃ p, f.kind = .trans p ∧ f.entity = e ∧ f.bases ≠ [] ∧ TransShape p f.names.length ∧
      (p.usesFull = false → Elementwise p f.names.length) ∧ (p.usesFull = true → I = (worldOf env).ids e))
    (hdep : ∀ f ∈ fs, ∀ d ∈ f.bases, d.name ∈ t.cols ∧ ∀ r ∈ t.rows, r d.name = one (M d) (r idx))
    (hV : ((worldOf env).ids e).Nodup) (hI : I.Sublist ((worldOf env).ids e))
    (hnd : ∀ f ∈ fs, f.names.Nodup) (hnew : ∀ f ∈ fs, ∀ n ∈ f.names, n ∉ t.cols)
    (hdisj : ∀ f ∈ fs, ∀ g ∈ fs, f ≠ g → ∀ n ∈ f.names, n ∉ g.names) :
    ∃ t', calcTrans env fs t = .ok t' ∧ FrameOk (worldOf env) M idx e B L lok (fun f => D f ∨ f ∈ fs) I t' := by
  have hcm : ∀ c, c ∈ addCols t.cols (fs.flatMap Feat.names) ↔ c ∈ t.cols ∨ ∃ f ∈ fs, c ∈ f.names := by
    intro c; rw [mem_addCols]; simp [List.mem_flatMap]
  by_cases hemp : t.rows = []
  · refine ⟨{ cols := addCols t.cols (fs.flatMap Feat.names), rows := [] }, by simp [calcTrans, hemp], ?_⟩
    refine h.extend hidx fs _ (fun _ r => r) (by simp [hemp]) (fun c hc => (hcm c).mpr (.inl hc)) (fun c hc => (hcm c).mp hc)
      (fun f hf n hn => (hcm n).mpr (.inr ⟨f, hf, hn⟩)) (fun i r hr => by simp [hemp] at hr) (fun i r hr => by simp [hemp] at hr)
  -- the columns
  let outs : Feat → List (List Val) := fun f => ((transPrim? f).map fun p =>
    p.fn env.timeLast (f.bases.map fun b => t.rows.map fun r => r b.name)).getD []
  have hargs : ∀ f ∈ fs, (f.bases.map fun b => t.rows.map fun r => r b.name) =
      (f.bases.map M).map fun b => I.map (one b) := by
    intro f hf
    rw [List.map_map]
    apply List.map_congr_left
    intro b hb
    simp only [Function.comp_def]
    rw [← h.ids, List.map_map]
    apply List.map_congr_left
    intro r hr
    exact (hdep f hf b hb).2 r hr
  have hIl : t.rows.length = I.length := by rw [← h.ids]; simp
  have hout : ∀ f ∈ fs, (outs f).length = f.names.length ∧ ∀ c ∈ outs f, c.length = t.rows.length := by
    intro f hf
    obtain ⟨p, hk, _, hb, hs, _⟩ := hfs f hf
    have hp : transPrim? f = some p := by simp [transPrim?, hk]
    simp only [outs, hp, Option.map_some, Option.getD_some]
    exact hs _ _ _ (by simpa using hb) (by
      intro a ha
      obtain ⟨b, _, rfl⟩ := List.mem_map.mp ha
      simp)
  have hcells : ∀ f ∈ fs, transCells env t f = .ok (f.names.zip (outs f)) := by
    intro f hf
    obtain ⟨p, hk, _, hb, hs, _⟩ := hfs f hf
    have hp : transPrim? f = some p := by simp [transPrim?, hk]
    have ho : outs f = p.fn env.timeLast (f.bases.map fun b => t.rows.map fun r => r b.name) := by simp [outs, hp]
    have hc : hasCols t (f.bases.map Feat.name) = true := by
      rw [hasCols_iff]
      intro c hc
      obtain ⟨b, hb, rfl⟩ := List.mem_map.mp hc
      exact (hdep f hf b hb).1
    have h1 := (hout f hf).1
    have h2 := (hout f hf).2
    simp only [transCells, hp, hc, if_true, ← ho, h1]
    rw [if_pos]
    simpa using h2
  refine ⟨assignCols t (fs.flatMap fun f => f.names.zip (outs f)), ?_, ?_⟩
  · have : t.rows.isEmpty = false := by simpa using hemp
    simp only [calcTrans, this, concatCells_ok _ _ fs hcells]
    rfl
  have hcm' : ∀ c, c ∈ (assignCols t (fs.flatMap fun f => f.names.zip (outs f))).cols ↔ c ∈ t.cols ∨ ∃ f ∈ fs, c ∈ f.names := by
    intro c
    simp only [assignCols, mem_addCols]
    have : c ∈ (fs.flatMap fun f => f.names.zip (outs f)).map Prod.fst ↔ ∃ f ∈ fs, c ∈ f.names := by
      simp only [List.map_flatMap, List.mem_flatMap]
      constructor
      · rintro ⟨f, hf, hc⟩
        rw [List.map_fst_zip (by rw [(hout f hf).1]; exact Nat.le_refl _)] at hc
        exact ⟨f, hf, hc⟩
      · rintro ⟨f, hf, hc⟩
        refine ⟨f, hf, ?_⟩
        rw [List.map_fst_zip (by rw [(hout f hf).1]; exact Nat.le_refl _)]
        exact hc
    rw [this]
  have hrow : ∀ (i : Nat) (r : Row), r.put ((fs.flatMap fun f => f.names.zip (outs f)).map fun nv => (nv.1, nv.2.getD i .null)) =
      r.put (fs.flatMap fun f => f.names.zip ((outs f).map fun c => c.getD i .null)) := by
    intro i r
    congr 1
    rw [List.map_flatMap]
    congr 1
    funext f
    rw [List.zip_map_right]
    rfl
  refine h.extend hidx fs _ _ rfl (fun c hc => (hcm' c).mpr (.inl hc)) (fun c hc => (hcm' c).mp hc)
      (fun f hf n hn => (hcm' n).mpr (.inr ⟨f, hf, hn⟩)) ?_ ?_
  · intro i r hr c hc
    simp only [hrow]
    exact put_feats_absent fs _ r c fun f hf hn => hnew f hf c hn hc
  · intro i r hr f hf
    simp only [hrow]
    rw [put_feats fs (fun f => (outs f).map fun c => c.getD i .null) hnd hdisj r f hf (by simp [(hout f hf).1])]
    obtain ⟨p, hk, he, hb, hs, hel, hfu⟩ := hfs f hf
    have hp : transPrim? f = some p := by simp [transPrim?, hk]
    have hk' : f.info.kind = .trans p := hk
    have he' : f.info.entity = e := he
    rw [hM f hf]
    simp only [meaningStep, hk', he']
    have hi : I[i]? = some (r idx) := by rw [← h.ids]; simp [hr]
    rw [transOn_frame (worldOf env) p f.names.length _ I _ (by simpa using hb) hs hV
      (hI.nodup hV) (fun x hx => hI.subset hx) hfu hel i (r idx) hi]
    simp only [outs, hp, Option.map_some, Option.getD_some, hargs f hf]
    rfl

end FT
