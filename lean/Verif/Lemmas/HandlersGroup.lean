import Verif.Lemmas.Handlers
/-! # Group-by transform features -/
namespace FT
open Spec

theorem lookup_append' (id : Val) (a b : List (Val × Val)) : (a ++ b).lookup id = (a.lookup id).or (b.lookup id) := by
  induction a with
  | nil => rfl
  | cons x a ih =>
    obtain ⟨k, v⟩ := x
    simp only [List.cons_append, List.lookup]
    split
    · rfl
    · exact ih

theorem lookup_flatMap_none (F : Val → List (Val × Val)) (id : Val) (l : List Val) (h : ∀ g ∈ l, (F g).lookup id = none) :
    (l.flatMap F).lookup id = none := by
  induction l with
  | nil => rfl
  | cons a l ih =>
    rw [List.flatMap_cons, lookup_append', h a (by simp), ih fun g hg => h g (by simp [hg])]
    rfl

theorem lookup_flatMap_one (F : Val → List (Val × Val)) (id gv : Val) (l : List Val) (hg : gv ∈ l)
    (h : ∀ g ∈ l, g ≠ gv → (F g).lookup id = none) : (l.flatMap F).lookup id = (F gv).lookup id := by
  induction l with
  | nil => cases hg
  | cons a l ih =>
    rw [List.flatMap_cons, lookup_append']
    by_cases ha : a = gv
    · subst ha
      by_cases hm : a ∈ l
      · rw [ih hm fun g hg hne => h g (by simp [hg]) hne]
        cases (F a).lookup id <;> rfl
      · rw [lookup_flatMap_none F id l fun g hg' => h g (by simp [hg']) (by rintro rfl; exact hm hg')]
        cases (F a).lookup id <;> rfl
    · rw [h a (by simp) ha]
      simp only [Option.none_or]
      rcases List.mem_cons.mp hg with rfl | hg
      · exact absurd rfl ha
      · exact ih hg fun g hg hne => h g (by simp [hg]) hne

theorem lookup_zip_none (ids col : List Val) (id : Val) (h : id ∉ ids) : (ids.zip col).lookup id = none := by
  induction ids generalizing col with
  | nil => rfl
  | cons a ids ih =>
    cases col with
    | nil => rfl
    | cons b col =>
      have hne : (id == a) = false := by simp only [beq_eq_false_iff_ne, ne_eq]; rintro rfl; simp at h
      simp only [List.zip_cons_cons, List.lookup, hne]
      exact ih col fun hm => h (by simp [hm])

theorem mapIdx_pair {β : Type} (names : List String) (F : Nat → β) :
    (names.mapIdx fun k n => (n, F k)) = names.zip ((List.range names.length).map F) := by
  apply List.ext_getElem (by simp)
  intro k h1 h2
  simp

theorem update_mem {β : Type} (c : String) (v : β) (cells : List (String × β)) (h : (c, v) ∈ cells)
    (hu : ∀ v', (c, v') ∈ cells → v' = v) : cells.reverse.lookup c = some v :=
  lookup_unique c v cells.reverse (by simpa using h) (by simpa using hu)

theorem map_pair_zip (names : List String) (d : Val) :
    (names.map fun n => (n, d)) = names.zip (names.map fun _ => d) := by
  induction names with
  | nil => rfl
  | cons a l ih => simp only [List.map_cons, List.zip_cons_cons, ih]

/-- Group-by transform features. -/
theorem calcGroupby_ok {env M idx e B L lok D I} {t : Table} (h : FrameOk (worldOf env) M idx e B L lok D I t) (hidx : idx ∈ B)
    (fs : List Feat) (hne : fs ≠ []) (grp : Feat)
    (hM : ∀ f ∈ fs, M f = meaningStep (worldOf env) f.info (f.bases.map M) (f.wh.map M))
    (hfs : ∀ f ∈ fs, ∃ p, f.kind = .groupby p ∧ f.entity = e ∧ f.bases.getLast? = some grp ∧ f.bases.dropLast ≠ [] ∧
      TransShape p f.names.length ∧
      (p.usesFull = false → Elementwise p f.names.length) ∧ (p.usesFull = true → I = (worldOf env).ids e))
    (hdep : ∀ f ∈ fs, ∀ d ∈ f.bases, d.name ∈ t.cols ∧ ∀ r ∈ t.rows, r d.name = one (M d) (r idx))
    (hV : ((worldOf env).ids e).Nodup) (hI : I.Sublist ((worldOf env).ids e))
    (hnd : ∀ f ∈ fs, f.names.Nodup) (hnew : ∀ f ∈ fs, ∀ n ∈ f.names, n ∉ t.cols)
    (hdisj : ∀ f ∈ fs, ∀ g ∈ fs, f ≠ g → ∀ n ∈ f.names, n ∉ g.names) :
    ∃ t', calcGroupby env idx fs t = .ok t' ∧ FrameOk (worldOf env) M idx e B L lok (fun f => D f ∨ f ∈ fs) I t' := by
  have hcm : ∀ c, c ∈ addCols t.cols (fs.flatMap Feat.names) ↔ c ∈ t.cols ∨ ∃ f ∈ fs, c ∈ f.names := by
    intro c; rw [mem_addCols]; simp [List.mem_flatMap]
  have hhead : (fs.head?.bind fun f => f.bases.getLast?) = some grp := by
    cases fs with
    | nil => exact absurd rfl hne
    | cons f fs =>
      obtain ⟨p, _, _, hl, _⟩ := hfs f (by simp)
      simpa using hl
  obtain ⟨f0, hf0⟩ := List.exists_mem_of_ne_nil _ hne
  have hgrp : grp ∈ f0.bases := by
    obtain ⟨p, _, _, hl, _⟩ := hfs f0 hf0
    exact List.mem_of_getLast? hl
  -- the frame with the defaults
  let dfl : Row → Row := fun r => r.put (fs.flatMap fun f => f.names.map fun n => (n, f.dflt))
  have hdz : (fs.flatMap fun f => f.names.map fun n => (n, f.dflt)) =
      fs.flatMap fun f => f.names.zip (f.names.map fun _ => f.dflt) := by
    congr 1; funext f
    exact map_pair_zip f.names f.dflt
  have hdold : ∀ r : Row, ∀ c ∈ t.cols, dfl r c = r c := by
    intro r c hc
    simp only [dfl, hdz]
    exact put_feats_absent fs _ r c fun f hf hn => hnew f hf c hn hc
  have hdnew : ∀ r : Row, ∀ f ∈ fs, ∀ n ∈ f.names, dfl r n = f.dflt := by
    intro r f hf n hn
    have := put_feats fs (fun f => f.names.map fun _ => f.dflt) hnd hdisj r f hf (by simp)
    have := List.map_inj_left.mp this n hn
    simp only [dfl, hdz]
    exact this
  have hidxc := (h.base idx hidx).1
  have ht1 : setDefaults fs t = { cols := addCols t.cols (fs.flatMap Feat.names), rows := t.rows.map dfl } := rfl
  have hids1 : (t.rows.map dfl).map (fun r => r idx) = I := by
    rw [← h.ids, List.map_map]
    exact List.map_congr_left fun r _ => hdold r idx hidxc
  have hdep1 : ∀ f ∈ fs, ∀ d ∈ f.bases, ∀ r ∈ t.rows.map dfl, r d.name = one (M d) (r idx) := by
    intro f hf d hd r hr
    obtain ⟨r', hr', rfl⟩ := List.mem_map.mp hr
    rw [hdold r' _ (hdep f hf d hd).1, hdold r' idx hidxc]
    exact (hdep f hf d hd).2 r' hr'
  let gkey : Val → Val := one (M grp)
  have hgk : ∀ r ∈ t.rows.map dfl, r grp.name = gkey (r idx) := hdep1 f0 hf0 grp hgrp
  -- one group
  have hmem : ∀ (g : Val) {β : Type} (v : Row → β) (v' : Val → β), (∀ r ∈ t.rows.map dfl, v r = v' (r idx)) →
      ((t.rows.map dfl).filter fun r => r grp.name = g).map v = (I.filter fun x => gkey x = g).map v' := by
    intro g β v v' hv
    rw [filter_ids idx _ (fun x => decide (gkey x = g)) v v' _ (fun r hr => by simp [hgk r hr]) hv, hids1]
  by_cases hemp : t.rows = []
  · refine ⟨setDefaults fs t, by simp [calcGroupby, ht1, hemp], ?_⟩
    refine h.extend hidx fs _ (fun _ r => dfl r) (by simp [ht1, hemp]) (fun c hc => (hcm c).mpr (.inl hc)) (fun c hc => (hcm c).mp hc)
      (fun f hf n hn => (hcm n).mpr (.inr ⟨f, hf, hn⟩)) (fun i r hr => by simp [hemp] at hr) (fun i r hr => by simp [hemp] at hr)
  let t1 : Table := { cols := addCols t.cols (fs.flatMap Feat.names), rows := t.rows.map dfl }
  let gouts : Feat → Val → List (List Val) := fun f g => ((transPrim? f).map fun p =>
    p.fn env.timeLast ((f.bases.dropLast.map M).map fun b => (I.filter fun x => gkey x = g).map (one b))).getD []
  let series : Feat → Nat → List (Val × Val) := fun f k =>
    (groupValues grp.name t1).flatMap fun g =>
      ((gouts f g).map fun col => (I.filter fun x => gkey x = g).zip col).getD k []
  have hargs : ∀ f ∈ fs, ∀ g, (f.bases.dropLast.map fun b => ((t.rows.map dfl).filter fun r => r grp.name = g).map fun r => r b.name) =
      (f.bases.dropLast.map M).map fun b => (I.filter fun x => gkey x = g).map (one b) := by
    intro f hf g
    rw [List.map_map]
    apply List.map_congr_left
    intro b hb
    exact hmem g _ _ (hdep1 f hf b (List.dropLast_subset _ hb))
  have hshape : ∀ f ∈ fs, ∀ g, (gouts f g).length = f.names.length ∧
      ∀ c ∈ gouts f g, c.length = (I.filter fun x => gkey x = g).length := by
    intro f hf g
    obtain ⟨p, hk, _, _, hb, hs, _⟩ := hfs f hf
    have hp : transPrim? f = some p := by simp [transPrim?, hk]
    simp only [gouts, hp, Option.map_some, Option.getD_some]
    refine hs _ _ _ (by simpa [-List.map_dropLast] using hb) (by
      intro a ha
      obtain ⟨b, _, rfl⟩ := List.mem_map.mp ha
      simp)
  have hcells : ∀ f ∈ fs, groupCells env idx grp.name t1 f = .ok (f.names.zip ((List.range f.names.length).map (series f))) := by
    intro f hf
    obtain ⟨p, hk, _, _, hb, hs, _⟩ := hfs f hf
    have hp : transPrim? f = some p := by simp [transPrim?, hk]
    have ho : ∀ g, gouts f g = p.fn env.timeLast ((f.bases.dropLast.map M).map fun b => (I.filter fun x => gkey x = g).map (one b)) := by
      intro g; simp [gouts, hp]
    have hc : hasCols t1 (grp.name :: f.bases.dropLast.map Feat.name) = true := by
      rw [hasCols_iff]
      intro c hc
      apply (hcm c).mpr
      rcases List.mem_cons.mp hc with rfl | hc
      · exact .inl (hdep f0 hf0 grp hgrp).1
      · obtain ⟨b, hb, rfl⟩ := List.mem_map.mp hc
        exact .inl (hdep f hf b (List.dropLast_subset _ hb)).1
    have hsh : (groupValues grp.name t1).all (groupShapes env grp.name t1 f p) = true := by
      rw [List.all_eq_true]
      intro g _
      simp only [groupShapes, t1, hargs f hf g, ← ho g]
      have hl : ((t.rows.map dfl).filter fun r => r grp.name = g).length = (I.filter fun x => gkey x = g).length := by
        have := congrArg List.length (hmem g (fun r => r idx) id (fun _ _ => rfl))
        simpa using this
      rw [hl]
      have := hshape f hf g
      simp only [this.1, beq_self_eq_true, Bool.true_and, List.all_eq_true, beq_iff_eq]
      exact this.2
    simp only [groupCells, hp, hc, if_true, hsh]
    rw [← mapIdx_pair]
    congr 2
    funext k n
    congr 2
    funext g
    simp only [groupSeries, t1, hargs f hf g, ← ho g]
    rw [hmem g (fun r => r idx) id (fun _ _ => rfl)]
    simp
  have hlook : ∀ f ∈ fs, ∀ (k : Nat) (n : String), f.names[k]? = some n →
      (fs.flatMap fun f => f.names.zip ((List.range f.names.length).map (series f))).reverse.lookup n = some (series f k) := by
    intro f hf k n hk
    have hkl := (List.getElem?_eq_some_iff.mp hk).1
    have hm : (n, series f k) ∈ f.names.zip ((List.range f.names.length).map (series f)) := by
      apply List.mem_of_getElem? (i := k)
      rw [List.getElem?_zip_eq_some]
      exact ⟨hk, by simp [hkl]⟩
    exact update_mem n _ _ (List.mem_flatMap.mpr ⟨f, hf, hm⟩)
      (feats_cells_unique fs (fun f => (List.range f.names.length).map (series f)) hnd hdisj f hf n _ hm)
  refine ⟨{ cols := t1.cols, rows := t1.rows.map (updateCells idx (fs.flatMap fun f => f.names.zip ((List.range f.names.length).map (series f)))) }, ?_, ?_⟩
  · have : (setDefaults fs t).rows.isEmpty = false := by simpa [ht1] using hemp
    simp only [calcGroupby, this, hhead]
    rw [ht1, concatCells_ok _ _ fs hcells]
    rfl
  have hIn := hI.nodup hV
  refine h.extend hidx fs _ (fun _ r => updateCells idx (fs.flatMap fun f => f.names.zip ((List.range f.names.length).map (series f))) (dfl r))
    ?_ (fun c hc => (hcm c).mpr (.inl hc)) (fun c hc => (hcm c).mp hc) (fun f hf n hn => (hcm n).mpr (.inr ⟨f, hf, hn⟩)) ?_ ?_
  · simp only [t1, List.map_map]
    apply List.ext_getElem?
    intro i
    simp only [List.getElem?_mapIdx, List.getElem?_map]
    rfl
  · intro i r hr c hc
    simp only [updateCells]
    rw [lookup_absent, hdold r c hc]
    intro v hv
    obtain ⟨f, hf, hv⟩ := List.mem_flatMap.mp (List.mem_reverse.mp hv)
    exact hnew f hf c (List.of_mem_zip hv).1 hc
  · intro i r hr f hf
    have hi : I[i]? = some (r idx) := by rw [← h.ids]; simp [hr]
    obtain ⟨p, hk, he, hlast, hb, hs, hel, hfu⟩ := hfs f hf
    have hp : transPrim? f = some p := by simp [transPrim?, hk]
    have hk' : f.info.kind = .groupby p := hk
    have he' : f.info.entity = e := he
    have hrm : dfl r ∈ t.rows.map dfl := List.mem_map.mpr ⟨r, List.mem_of_getElem? hr, rfl⟩
    have hval : ∀ (k : Nat) (n : String), f.names[k]? = some n →
        updateCells idx (fs.flatMap fun f => f.names.zip ((List.range f.names.length).map (series f))) (dfl r) n =
          orElse f.dflt (((series f k).lookup (r idx)).getD .null) := by
      intro k n hkn
      simp only [updateCells, hlook f hf k n hkn, hdold r idx hidxc, hdnew r f hf n (List.mem_of_getElem? hkn)]
      rfl
    rw [hM f hf]
    simp only [meaningStep, hk', he']
    have hlast' : (f.bases.map M).getLast? = some (M grp) := by
      rw [List.getLast?_map, hlast]; rfl
    simp only [hlast']
    have hnot : ∀ g k, g ≠ gkey (r idx) →
        (((gouts f g).map fun col => (I.filter fun x => gkey x = g).zip col).getD k []).lookup (r idx) = none := by
      intro g k hg
      simp only [List.getD, List.getElem?_map]
      cases (gouts f g)[k]? with
      | none => rfl
      | some col =>
        simp only [Option.map_some, Option.getD_some]
        apply lookup_zip_none
        intro hm
        have := (List.mem_filter.mp hm).2
        simp only [decide_eq_true_eq] at this
        exact hg this.symm
    have hgv : ∀ g, g ∈ groupValues grp.name t1 ↔ g ≠ .null ∧ ∃ x ∈ I, gkey x = g := by
      intro g
      simp only [groupValues, mem_dropna, mem_dedup, t1]
      constructor
      · rintro ⟨h1, h2⟩
        obtain ⟨r', hr', rfl⟩ := List.mem_map.mp h1
        refine ⟨h2, r' idx, ?_, (hgk r' hr').symm⟩
        rw [← hids1]
        exact List.mem_map.mpr ⟨r', hr', rfl⟩
      · rintro ⟨h1, x, hx, rfl⟩
        refine ⟨?_, h1⟩
        rw [← hids1] at hx
        obtain ⟨r', hr', rfl⟩ := List.mem_map.mp hx
        exact List.mem_map.mpr ⟨r', hr', hgk r' hr'⟩
    by_cases hnull : gkey (r idx) = .null
    · rw [if_pos hnull]
      apply List.map_congr_left
      intro n hn
      obtain ⟨k, hkn⟩ := List.getElem?_of_mem hn
      rw [hval k n hkn]
      have : (series f k).lookup (r idx) = none := by
        apply lookup_flatMap_none
        intro g hg
        exact hnot g k fun hgg => ((hgv g).mp hg).1 (hgg.trans hnull)
      rw [this]
      simp [orElse]
      rfl
    · rw [if_neg hnull]
      have hin : gkey (r idx) ∈ groupValues grp.name t1 := (hgv _).mpr ⟨hnull, r idx, List.mem_of_getElem? hi, rfl⟩
      let J := I.filter fun x => gkey x = gkey (r idx)
      have hJm : r idx ∈ J := by simp [J, List.mem_of_getElem? hi]
      obtain ⟨j, hj⟩ := List.getElem?_of_mem hJm
      have hto := transOn_frame (worldOf env) p f.names.length
        (((worldOf env).ids e).filter fun x => one (M grp) x = one (M grp) (r idx)) J
        (f.bases.dropLast.map M) (by simpa [-List.map_dropLast] using hb) hs
        (hV.filter _) (hIn.filter _) (fun x hx => by
          simp only [J, List.mem_filter, decide_eq_true_eq] at hx ⊢
          exact ⟨hI.subset hx.1, hx.2⟩) (fun hu => by simp only [J, hfu hu]; rfl) hel j (r idx) hj
      have hbl : (f.bases.map M).dropLast = f.bases.dropLast.map M := by
        simp only [List.map_dropLast]
      rw [hbl, hto]
      have hgo : gouts f (gkey (r idx)) = p.fn env.timeLast ((f.bases.dropLast.map M).map fun b => J.map (one b)) := by
        simp [gouts, hp, J]
      have hwt : (worldOf env).time = env.timeLast := rfl
      rw [hwt, ← hgo]
      have hsh := hshape f hf (gkey (r idx))
      apply List.ext_getElem (by simp [hsh.1])
      intro k h1 h2
      simp only [List.getElem_map]
      have hkl : k < f.names.length := by simpa using h1
      rw [hval k _ (List.getElem?_eq_getElem hkl)]
      have hkl' : k < (gouts f (gkey (r idx))).length := by rw [hsh.1]; exact hkl
      have hlk : (series f k).lookup (r idx) = (J.zip (gouts f (gkey (r idx)))[k]).lookup (r idx) := by
        simp only [series]
        rw [lookup_flatMap_one _ (r idx) (gkey (r idx)) _ hin fun g _ hg => hnot g k hg]
        simp [List.getD, hkl', J]
      rw [hlk]
      have := pick_getElem J (gouts f (gkey (r idx)))[k] (hIn.filter _) j (r idx) hj (hsh.2 _ (List.getElem_mem hkl'))
      unfold pick at this
      rw [this]
      rfl

end FT
