import Verif.Spec.DaskMatrix
import Verif.Props.Dask
import Verif.Lemmas.CfmApprox
/-! # The feature matrix on Dask entity sets -/
namespace FT
open Spec

theorem perm_map_partition {α β : Type} (P : α → Bool) (a b : α → β) (l : List α) :
    ((l.filter P).map a ++ (l.filter fun x => !P x).map b).Perm (l.map fun x => if P x then a x else b x) := by
  induction l with
  | nil => exact .refl _
  | cons x l ih =>
    by_cases h : P x = true
    · simp only [List.filter_cons, h, if_true, Bool.not_true, Bool.false_eq_true, if_false, List.map_cons, List.cons_append]
      exact .cons _ ih
    · have h' : P x = false := by simpa using h
      simp only [List.filter_cons, h', Bool.not_false, Bool.false_eq_true, if_false, if_true, List.map_cons]
      exact (List.perm_middle).trans (.cons _ ih)

theorem outerJoin_perm {left left' right : Table} (hc : left.cols = left'.cols) (hr : left.rows.Perm left'.rows) :
    (outerJoin left right).cols = (outerJoin left' right).cols ∧ (outerJoin left right).rows.Perm (outerJoin left' right).rows := by
  unfold outerJoin
  simp only [hc]
  refine ⟨trivial, ?_⟩
  refine List.Perm.append (hr.flatMap_right _) ?_
  refine List.Perm.of_eq ?_
  congr 1
  apply List.filter_congr
  intro p _
  congr 1
  rw [Bool.eq_iff_iff, List.any_eq_true, List.any_eq_true]
  exact ⟨fun ⟨x, hx, h⟩ => ⟨x, hr.mem_iff.mp hx, h⟩, fun ⟨x, hx, h⟩ => ⟨x, hr.mem_iff.mpr hx, h⟩⟩

/-- The row of the passed table for a row of the group. -/
def passRow (idx : String) (t : Int) (pass : List String) (c : String) (r : TRow) : Row :=
  Row.ofList [(idx, r.id), ("time", .num t), (c, ((pass.zip r.pass).lookup c).getD .null)]

theorem passRow_idx {idx : String} {t : Int} {pass : List String} {c : String} (r : TRow) : passRow idx t pass c r idx = r.id := by
  simp [passRow, Row.ofList, List.lookup_cons]

theorem passRow_time {idx : String} {t : Int} {pass : List String} {c : String} (h : idx ≠ "time") (r : TRow) :
    passRow idx t pass c r "time" = .num t := by
  have : ("time" == idx) = false := by simpa using h.symm
  simp [passRow, Row.ofList, List.lookup_cons, this]

theorem passRow_cell {idx : String} {t : Int} {pass : List String} {c : String} (h : idx ≠ c) (h' : c ≠ "time") (r : TRow) :
    passRow idx t pass c r c = ((pass.zip r.pass).lookup c).getD .null := by
  have h1 : (c == idx) = false := by simpa using h.symm
  have h2 : (c == "time") = false := by simpa using h'
  simp [passRow, Row.ofList, List.lookup_cons, h1, h2]

theorem passRow_other {idx : String} {t : Int} {pass : List String} {c n : String} (h1 : n ≠ idx) (h2 : n ≠ "time") (h3 : n ≠ c) (r : TRow) :
    passRow idx t pass c r n = .null := by
  have h1 : (n == idx) = false := by simpa using h1
  have h2 : (n == "time") = false := by simpa using h2
  have h3 : (n == c) = false := by simpa using h3
  simp [passRow, Row.ofList, List.lookup_cons, h1, h2, h3]

section
variable {idx : String} {t : Int} {pass : List String} {grp : List TRow} {c : String}

/-- One merge of a passed column: left are the rows `f r` of some rows `r` of the group. -/
theorem outerJoin_pass (hti : idx ≠ "time") (hci : idx ≠ c) (hct : c ≠ "time") (hnd : (grp.map TRow.id).Nodup) (P : TRow → Bool)
    (f : TRow → Row) (left : Table) (hidx : idx ∈ left.cols) (htime : "time" ∈ left.cols) (hc : c ∉ left.cols)
    (hrows : left.rows.Perm ((grp.filter P).map f)) (hf : ∀ r ∈ grp, P r = true → f r idx = r.id ∧ f r "time" = .num t) :
    (outerJoin left (passTable idx t pass grp c)).cols = left.cols ++ [c] ∧
    (outerJoin left (passTable idx t pass grp c)).rows.Perm (grp.map fun r =>
      if P r then (f r).put [(c, passRow idx t pass c r c)] else passRow idx t pass c r) := by
  have hnew : ([idx, "time", c].filter fun n => !left.cols.contains n) = [c] := by
    simp [hidx, htime, hc]
  have hon : ∀ l p : Row, agreeOn (left.cols.filter fun n => [idx, "time", c].contains n) l p = true ↔ l idx = p idx ∧ l "time" = p "time" := by
    intro l p
    unfold agreeOn
    rw [List.all_eq_true]
    constructor
    · intro h
      exact ⟨by simpa using h idx (List.mem_filter.mpr ⟨hidx, by simp⟩), by simpa using h "time" (List.mem_filter.mpr ⟨htime, by simp⟩)⟩
    · rintro ⟨h1, h2⟩ n hn
      obtain ⟨hn1, hn2⟩ := List.mem_filter.mp hn
      simp only [List.contains_eq_mem, List.mem_cons, List.not_mem_nil, or_false, decide_eq_true_eq] at hn2
      rcases hn2 with rfl | rfl | rfl
      · simpa using h1
      · simpa using h2
      · exact absurd hn1 hc
  refine ⟨by simp only [outerJoin, passTable, hnew], ?_⟩
  refine (outerJoin_perm (left := left) (left' := { left with rows := (grp.filter P).map f }) rfl hrows).2.trans ?_
  have hright : (passTable idx t pass grp c).rows = grp.map (passRow idx t pass c) := rfl
  have hrc : (passTable idx t pass grp c).cols = [idx, "time", c] := rfl
  unfold outerJoin
  dsimp only
  rw [hright, hrc, hnew]
  refine List.Perm.trans (List.Perm.of_eq ?_) (perm_map_partition P (fun r => (f r).put [(c, passRow idx t pass c r c)]) (passRow idx t pass c) grp)
  congr 1
  · rw [List.flatMap_map]
    refine Eq.trans ?_ (flatMap_single (grp.filter P) (fun r => (f r).put [(c, passRow idx t pass c r c)]))
    apply flatMap_congr'
    intro r hrf
    obtain ⟨hr, hp⟩ := List.mem_filter.mp hrf
    obtain ⟨h1, h2⟩ := hf r hr hp
    clear hrf
    have : (grp.map (passRow idx t pass c)).filter (agreeOn (left.cols.filter fun n => [idx, "time", c].contains n) (f r)) = [passRow idx t pass c r] := by
      rw [List.filter_map]
      have : grp.filter ((agreeOn (left.cols.filter fun n => [idx, "time", c].contains n) (f r)) ∘ passRow idx t pass c) = grp.filter fun x => x.id = r.id := by
        apply List.filter_congr
        intro x _
        rw [Bool.eq_iff_iff, Function.comp, hon, h1, h2, passRow_idx, passRow_time hti]
        simp [eq_comm]
      rw [this]
      have : grp.filter (fun x => x.id = r.id) = [r] := by
        clear hrows hf this h1 h2 hright hrc
        induction grp with
        | nil => cases hr
        | cons y ys ih =>
          rw [List.map_cons, List.nodup_cons] at hnd
          rcases List.mem_cons.mp hr with rfl | hr'
          · rw [List.filter_cons, if_pos (by simp), List.filter_eq_nil_iff.mpr]
            intro z hz
            simp only [decide_eq_true_eq]
            intro he
            exact hnd.1 (List.mem_map.mpr ⟨z, hz, he⟩)
          · rw [List.filter_cons, if_neg]
            · exact ih hnd.2 hr'
            · simp only [decide_eq_true_eq]
              intro he
              exact hnd.1 (List.mem_map.mpr ⟨r, hr', he.symm⟩)
      rw [this]; rfl
    rw [this]
    rfl
  · have : (grp.map (passRow idx t pass c)).filter (fun p => !(((grp.filter P).map f).any fun l => agreeOn (left.cols.filter fun n => [idx, "time", c].contains n) l p)) =
        (grp.filter fun r => !P r).map (passRow idx t pass c) := by
      rw [List.filter_map]
      congr 1
      apply List.filter_congr
      intro x hx
      rw [Function.comp]
      congr 1
      rw [Bool.eq_iff_iff, List.any_eq_true]
      constructor
      · rintro ⟨l, hl, ha⟩
        obtain ⟨r, hr, rfl⟩ := List.mem_map.mp hl
        obtain ⟨hr, hp⟩ := List.mem_filter.mp hr
        have := ((hon _ _).mp ha).1
        rw [(hf r hr hp).1, passRow_idx] at this
        rw [← eq_of_nodup_map hnd hr hx this]; exact hp
      · intro hp
        refine ⟨f x, List.mem_map.mpr ⟨x, List.mem_filter.mpr ⟨hx, hp⟩, rfl⟩, (hon _ _).mpr ?_⟩
        rw [(hf x hx hp).1, (hf x hx hp).2, passRow_idx, passRow_time hti]
        exact ⟨rfl, rfl⟩
    rw [this, List.map_map]
    apply List.map_congr_left
    intro r _
    funext n
    simp only [Function.comp]
    by_cases h1 : n = idx
    · subst h1; simp [Row.ofList]
    · by_cases h2 : n = "time"
      · subst h2
        have : ("time" == idx) = false := by simpa using hti.symm
        simp [Row.ofList, List.lookup_cons, this]
      · have h1' : (n == idx) = false := by simpa using h1
        have h2' : (n == "time") = false := by simpa using h2
        by_cases h3 : n = c
        · subst h3; simp [Row.ofList, List.lookup_cons, h1', h2']
        · have h3' : (n == c) = false := by simpa using h3
          rw [passRow_other h1 h2 h3]
          simp [Row.ofList, List.lookup_cons, h1', h2', h3']

theorem daskPass_ok (hti : idx ≠ "time") (hnd : (grp.map TRow.id).Nodup) (order : Nat → List Row → List Row) (ho : ∀ k rows, (order k rows).Perm rows) :
    ∀ (cs : List String) (k : Nat) (left : Table) (f : TRow → Row), idx ∈ left.cols → "time" ∈ left.cols → cs.Nodup →
      (∀ n ∈ cs, n ∉ left.cols) → left.rows.Perm (grp.map f) → (∀ r ∈ grp, f r idx = r.id ∧ f r "time" = .num t) →
      ∃ g : TRow → Row, (daskPass order (passTable idx t pass grp) k cs left).cols = left.cols ++ cs ∧
        (daskPass order (passTable idx t pass grp) k cs left).rows.Perm (grp.map g) ∧
        ∀ r ∈ grp, (∀ n, n ∉ cs → g r n = f r n) ∧ ∀ n ∈ cs, g r n = ((pass.zip r.pass).lookup n).getD .null
  | [], k, left, f, _, _, _, _, hr, hf => ⟨f, by simp [daskPass], hr, fun r _ => ⟨fun _ _ => rfl, by simp⟩⟩
  | c :: cs, k, left, f, hi, hti', hn, hfresh, hr, hf => by
    rw [List.nodup_cons] at hn
    have hc : c ∉ left.cols := hfresh c (by simp)
    have hci : idx ≠ c := fun h => hc (h ▸ hi)
    have hct : c ≠ "time" := fun h => hc (h ▸ hti')
    obtain ⟨h1, h2⟩ := outerJoin_pass (pass := pass) hti hci hct hnd (fun _ => true) f left hi hti' hc (by rw [filter_tt]; exact hr) (fun r hr _ => hf r hr)
    simp only [if_true] at h2
    obtain ⟨g, hg1, hg2, hg3⟩ := daskPass_ok hti hnd order ho cs (k + 1)
      { outerJoin left (passTable idx t pass grp c) with rows := order k (outerJoin left (passTable idx t pass grp c)).rows }
      (fun r => (f r).put [(c, passRow idx t pass c r c)]) (by simp only [h1]; simp [hi]) (by simp only [h1]; simp [hti']) hn.2
      (fun n hn' => by
        simp only [h1, List.mem_append, List.mem_singleton, not_or]
        exact ⟨hfresh n (by simp [hn']), fun h => hn.1 (h ▸ hn')⟩)
      ((ho _ _).trans h2)
      (fun r hr => by
        rw [put_absent _ _ _ (by simp [hci]), put_absent _ _ _ (by simp [Ne.symm hct])]
        exact hf r hr)
    refine ⟨g, ?_, ?_, fun r hr => ⟨fun n hn' => ?_, fun n hn' => ?_⟩⟩
    · rw [daskPass]; rw [hg1]; simp [h1]
    · rw [daskPass]; exact hg2
    · simp only [List.mem_cons, not_or] at hn'
      rw [(hg3 r hr).1 n hn'.2, put_absent _ _ _ (by simp [hn'.1])]
    · rcases List.mem_cons.mp hn' with rfl | hn'
      · rw [(hg3 r hr).1 n hn.1, put_mem _ _ n (passRow idx t pass n r n) (by simp) (by simp), passRow_cell hci hct]
      · exact (hg3 r hr).2 n hn'

end


/-- Tables with the given columns that have these rows together, in some order. -/
def Renders (cols : List String) (ts : List Table) (rows : List (List Val)) : Prop :=
  (∀ t ∈ ts, t.cols = cols) ∧ (ts.flatMap tableCells).Perm rows

theorem concatAll_renders {α : Type} (cols : List String) (g : α → Except PyErr (List Table)) (h : α → List (List Val)) :
    ∀ (l : List α), (∀ x ∈ l, ∃ ts, g x = .ok ts ∧ ts ≠ [] ∧ Renders cols ts (h x)) →
      ∃ ts, concatAll g l = .ok ts ∧ (l ≠ [] → ts ≠ []) ∧ Renders cols ts (l.flatMap h)
  | [], _ => ⟨[], rfl, by simp, by simp [Renders]⟩
  | a :: l, hg => by
    obtain ⟨ts, h1, h2, h3, h4⟩ := hg a (by simp)
    obtain ⟨us, h5, h6, h7, h8⟩ := concatAll_renders cols g h l fun x hx => hg x (by simp [hx])
    refine ⟨ts ++ us, by simp [concatAll, h1, h5], fun _ => by simp [h2], ?_, ?_⟩
    · intro t ht
      rcases List.mem_append.mp ht with ht | ht
      · exact h3 t ht
      · exact h7 t ht
    · rw [List.flatMap_append, List.flatMap_cons]
      exact h4.append h8

theorem filter_map_flatMap {α β : Type} (P : α → Bool) (g : α → β) (l : List α) :
    (l.filter P).map g = l.flatMap fun x => if P x then [g x] else [] := by
  induction l with
  | nil => rfl
  | cons x xs ih =>
    simp only [List.flatMap_cons, List.filter_cons]
    split
    · simp [ih]
    · simpa using ih

theorem cells_ofList {cols : List String} {vals : List Val} (hn : cols.Nodup) (hl : cols.length = vals.length) :
    cols.map (Row.ofList (cols.zip vals)) = vals := map_lookup_zip hn hl

/-- The conditions on a call with a cutoff table, for some of its rows. -/
structure DaskRows (D : DaskChoice) (c : Call) (idx : String) (rows : List TRow) : Prop where
  fair : FairChoice D
  window : c.env.window = none
  index : indexOf c.env c.entity = idx
  labels : (rows.map fun r => (r.id, r.time)).Nodup
  given : ∀ r ∈ rows, r.id ≠ .null
  pass : ∀ r ∈ rows, r.pass.length = c.passCols.length
  columns : (c.featCols ++ [idx] ++ c.passCols).Nodup
  time : c.passCols ≠ [] → "time" ∉ c.featCols ++ [idx] ++ c.passCols
  regular : ∀ r ∈ rows, RegularAt c.env c.targets c.entity r.time
  features : ∀ t ids f, NeededBy c.targets f → DaskFeature (D.arrange t ids) f

theorem DaskRows.sub {D : DaskChoice} {c : Call} {idx : String} {rows rows' : List TRow} (h : DaskRows D c idx rows) (hs : rows'.Sublist rows) :
    DaskRows D c idx rows' :=
  { h with
    labels := h.labels.sublist (hs.map _)
    given := fun r hr => h.given r (hs.subset hr)
    pass := fun r hr => h.pass r (hs.subset hr)
    regular := fun r hr => h.regular r (hs.subset hr) }

/-- What a row gives. -/
abbrev rowAnswer (c : Call) (r : TRow) : List (List Val) := daskAnswer c.env c.targets c.entity c.passCols r.id r.time r.pass

theorem daskPiece_ok {D : DaskChoice} {c : Call} {idx : String} {t : Int} {grp : List TRow} (hne : grp ≠ []) (ht : ∀ r ∈ grp, r.time = t)
    (H : DaskRows D c idx grp) :
    ∃ tb, daskPiece D c idx t grp = .ok tb ∧ Renders (c.featCols ++ [idx] ++ c.passCols) [tb] (grp.flatMap (rowAnswer c)) := by
  obtain ⟨r0, hr0⟩ := List.exists_mem_of_ne_nil _ hne
  have R : RegularAt c.env c.targets c.entity t := ht r0 hr0 ▸ H.regular r0 hr0
  have hids : (isort c.idLe (grp.map TRow.id)).Perm (grp.map TRow.id) := isort_perm _ _
  have hnd : (grp.map TRow.id).Nodup := by
    have := H.labels
    rw [show (grp.map fun r => (r.id, r.time)) = (grp.map TRow.id).map fun i => (i, t) by
      rw [List.map_map]; apply List.map_congr_left; intro r hr; simp [ht r hr]] at this
    exact (List.pairwise_map.mp this).imp fun h e => h (by rw [e])
  have hsome : ∃ i ∈ isort c.idLe (grp.map TRow.id), i ≠ .null :=
    ⟨r0.id, hids.mem_iff.mpr (List.mem_map.mpr ⟨r0, hr0, rfl⟩), H.given r0 hr0⟩
  obtain ⟨rows, hrun, hrows⟩ := C78_values_partial (H.fair t (isort c.idLe (grp.map TRow.id))).1 R H.window (H.features t _) _ hsome
  have hV := visible_ids R.entityOk R.window
  let W := worldAt c.env t
  let vals := fun id => c.targets.flatMap fun f => meaning W f id
  let P : TRow → Bool := fun r => decide (r.id ∈ W.ids c.entity)
  have hperm : rows.Perm ((grp.filter P).map fun r => (r.id, vals r.id)) := by
    refine hrows.trans ?_
    have : (((worldOf { c.env with timeLast := t }).ids c.entity).filter (· ∈ isort c.idLe (grp.map TRow.id))).Perm ((grp.filter P).map TRow.id) := by
      apply (List.perm_ext_iff_of_nodup (hV.1.filter _) (hnd.sublist (List.filter_sublist.map _))).mpr
      intro x
      simp only [List.mem_filter, List.mem_map, decide_eq_true_eq, hids.mem_iff, P]
      constructor
      · rintro ⟨h1, r, hr, rfl⟩; exact ⟨r, ⟨hr, h1⟩, rfl⟩
      · rintro ⟨r, ⟨hr, h1⟩, rfl⟩; exact ⟨h1, r, hr, rfl⟩
    refine (this.map fun id => (id, vals id)).trans (.of_eq ?_)
    rw [List.map_map]; rfl
  have hcols0 : (c.featCols ++ [idx]).Nodup := H.columns.sublist (List.sublist_append_left _ _)
  have hlen : ∀ r ∈ grp, P r = true → (c.featCols ++ [idx]).length = (vals r.id ++ [r.id]).length := by
    intro r _ hp
    have hv : r.id ∈ (worldOf { c.env with timeLast := t }).ids c.entity := of_decide_eq_true hp
    simp only [List.length_append, List.length_singleton, Nat.add_right_cancel_iff]
    show (c.targets.flatMap Feat.names).length = (c.targets.flatMap fun f => meaning W f r.id).length
    rw [List.length_flatMap, List.length_flatMap]
    congr 1
    apply List.map_congr_left
    intro f hf
    exact (meaning_length R f hf r.id hv).symm
  have hall : ((isort c.idLe (grp.map TRow.id)).all fun i => decide (i = .null)) = false := by
    rw [List.all_eq_false]
    obtain ⟨i, hi, h⟩ := hsome
    exact ⟨i, hi, by simpa using h⟩
  have hrun' : runDask (D.arrange t (isort c.idLe (grp.map TRow.id))) (c.at t c.env.window) c.targets c.entity (isort c.idLe (grp.map TRow.id)) = .ok rows := hrun
  unfold daskPiece
  simp only [hrun', hall, Bool.false_eq_true, if_false]
  by_cases hpass : c.passCols = []
  · simp only [hpass, List.isEmpty_nil, if_true]
    refine ⟨_, rfl, ?_, ?_⟩
    · intro tb htb
      rw [List.mem_singleton.mp htb]; simp [daskFrame]
    · rw [List.flatMap_cons, List.flatMap_nil, List.append_nil]
      simp only [tableCells, daskFrame, List.map_map]
      refine (hperm.map _).trans (.of_eq ?_)
      rw [List.map_map]
      have : ((grp.filter P).map fun r => vals r.id ++ [r.id]) = grp.flatMap (rowAnswer c) := by
        have h : ∀ r ∈ grp, rowAnswer c r = if P r then [vals r.id ++ [r.id]] else [] := by
          intro r hr
          have hp : r.pass = [] := List.length_eq_zero_iff.mp (by rw [H.pass r hr, hpass]; rfl)
          unfold rowAnswer daskAnswer
          rw [ht r hr, hp, List.append_nil]
          by_cases hv : r.id ∈ (worldAt c.env t).ids c.entity
          · rw [if_pos hv, if_pos (by simpa [P] using hv)]
          · rw [if_neg hv, if_pos hpass, if_neg (by simpa [P] using hv)]
        rw [flatMap_congr' h, filter_map_flatMap]
      rw [← this]
      apply List.map_congr_left
      intro r hr
      obtain ⟨hr, hp⟩ := List.mem_filter.mp hr
      exact cells_ofList hcols0 (hlen r hr hp)
  · have htime := H.time hpass
    simp only [List.mem_append, List.mem_singleton, not_or] at htime
    obtain ⟨⟨ht1, ht2⟩, ht3⟩ := htime
    have hti : idx ≠ "time" := fun h => ht2 h.symm
    have hidxpass : idx ∉ c.passCols := by
      have := (List.nodup_append.mp H.columns).2.2
      intro h
      exact this idx (by simp) idx h rfl
    have hfeatpass : ∀ n ∈ c.passCols, n ∉ c.featCols := by
      intro n hn hm
      exact (List.nodup_append.mp H.columns).2.2 n (by simp [hm]) n hn rfl
    have hidxfeat : idx ∉ c.featCols := by
      intro h
      exact (List.nodup_append.mp hcols0).2.2 idx h idx (by simp) rfl
    have hpnd : c.passCols.Nodup := (List.nodup_append.mp H.columns).2.1
    have hset : setAdd (c.featCols ++ [idx]) "time" = c.featCols ++ [idx] ++ ["time"] := by
      unfold setAdd
      rw [if_neg]
      simp [ht1, ht2]
    have hdup : noDup (daskFrame (c.featCols ++ [idx]) rows).cols = true := (noDup_iff _).mpr hcols0
    have hcon : c.passCols.contains idx = false := by simpa using hidxpass
    have hemp : c.passCols.isEmpty = false := by simpa using hpass
    simp only [hemp, hdup, hcon, Bool.not_true, Bool.or_self, Bool.false_eq_true, if_false]
    refine ⟨_, rfl, ?_⟩
    obtain ⟨c0, cs, hcs⟩ := List.exists_cons_of_ne_nil hpass
    let f0 : TRow → Row := fun r => (Row.ofList ((c.featCols ++ [idx]).zip (vals r.id ++ [r.id]))).put [("time", .num t)]
    have hbase : ∀ r ∈ grp, P r = true → (c.featCols ++ [idx]).map (f0 r) = vals r.id ++ [r.id] := by
      intro r hr hp
      rw [← cells_ofList hcols0 (hlen r hr hp)]
      apply List.map_congr_left
      intro n hn
      show Row.put _ _ n = _
      rw [put_absent _ _ _ (by
        intro v hv
        simp only [List.mem_singleton, Prod.mk.injEq] at hv
        rw [hv.1] at hn
        simp only [List.mem_append, List.mem_singleton] at hn
        rcases hn with h | h
        · exact ht1 h
        · exact ht2 h)]
    have hidx0 : ∀ r ∈ grp, P r = true → f0 r idx = r.id ∧ f0 r "time" = .num t := by
      intro r hr hp
      refine ⟨?_, put_mem _ _ "time" (.num t) (by simp) (by simp)⟩
      have := hbase r hr hp
      rw [List.map_append] at this
      have := List.append_inj_right' this rfl
      simpa using this
    have hcell : ∀ r ∈ grp, c.passCols.map (fun n => ((c.passCols.zip r.pass).lookup n).getD .null) = r.pass :=
      fun r hr => map_lookup_zip hpnd (H.pass r hr).symm
    have hstart : (((daskFrame (c.featCols ++ [idx]) rows).rows).map fun r => r.put [("time", .num t)]).Perm ((grp.filter P).map f0) := by
      simp only [daskFrame, List.map_map]
      refine (hperm.map _).trans (.of_eq ?_)
      rw [List.map_map]; rfl
    have hcols1 : (daskFrame (c.featCols ++ [idx]) rows).cols = c.featCols ++ [idx] := rfl
    rw [hcols1, hset]
    rw [hcs] at hpnd hidxpass hfeatpass ht3
    rw [List.nodup_cons] at hpnd
    simp only [List.mem_cons, not_or] at hidxpass ht3
    obtain ⟨h1, h2⟩ := outerJoin_pass (pass := c.passCols) (c := c0) hti hidxpass.1 (Ne.symm ht3.1) hnd P f0
      { cols := c.featCols ++ [idx] ++ ["time"], rows := ((daskFrame (c.featCols ++ [idx]) rows).rows).map fun r => r.put [("time", .num t)] }
      (by simp) (by simp) (by
        simp only [List.mem_append, List.mem_singleton, not_or]
        exact ⟨⟨hfeatpass c0 (by simp), Ne.symm hidxpass.1⟩, Ne.symm ht3.1⟩) hstart hidx0
    let f1 : TRow → Row := fun r => if P r then (f0 r).put [(c0, passRow idx t c.passCols c0 r c0)] else passRow idx t c.passCols c0 r
    have hf1 : ∀ r ∈ grp, f1 r idx = r.id ∧ f1 r "time" = .num t := by
      intro r hr
      by_cases hp : P r = true
      · simp only [f1, hp, if_true]
        rw [put_absent _ _ _ (by simp [hidxpass.1]), put_absent _ _ _ (by simp [ht3.1])]
        exact hidx0 r hr hp
      · simp only [f1, hp, if_false]
        exact ⟨passRow_idx r, passRow_time hti r⟩
    obtain ⟨g, hg1, hg2, hg3⟩ := daskPass_ok (pass := c.passCols) hti hnd (D.order t (isort c.idLe (grp.map TRow.id))) (H.fair t _).2 cs 1
      { outerJoin { cols := c.featCols ++ [idx] ++ ["time"], rows := ((daskFrame (c.featCols ++ [idx]) rows).rows).map fun r => r.put [("time", .num t)] } (passTable idx t c.passCols grp c0) with
        rows := D.order t (isort c.idLe (grp.map TRow.id)) 0 (outerJoin { cols := c.featCols ++ [idx] ++ ["time"], rows := ((daskFrame (c.featCols ++ [idx]) rows).rows).map fun r => r.put [("time", .num t)] } (passTable idx t c.passCols grp c0)).rows }
      f1 (by simp only [h1]; simp) (by simp only [h1]; simp) hpnd.2 (fun n hn => by
        simp only [h1, List.mem_append, List.mem_singleton, not_or]
        refine ⟨⟨⟨hfeatpass n (by simp [hn]), fun h => hidxpass.2 (h ▸ hn)⟩, fun h => ht3.2 (h ▸ hn)⟩, fun h => hpnd.1 (h ▸ hn)⟩)
      (((H.fair t _).2 _ _).trans h2) hf1
    have hdp : daskPass (D.order t (isort c.idLe (grp.map TRow.id))) (passTable idx t c.passCols grp) 0 c.passCols
        { cols := c.featCols ++ [idx] ++ ["time"], rows := ((daskFrame (c.featCols ++ [idx]) rows).rows).map fun r => r.put [("time", .num t)] } =
        daskPass (D.order t (isort c.idLe (grp.map TRow.id))) (passTable idx t c.passCols grp) 1 cs
          { outerJoin { cols := c.featCols ++ [idx] ++ ["time"], rows := ((daskFrame (c.featCols ++ [idx]) rows).rows).map fun r => r.put [("time", .num t)] } (passTable idx t c.passCols grp c0) with
            rows := D.order t (isort c.idLe (grp.map TRow.id)) 0 (outerJoin { cols := c.featCols ++ [idx] ++ ["time"], rows := ((daskFrame (c.featCols ++ [idx]) rows).rows).map fun r => r.put [("time", .num t)] } (passTable idx t c.passCols grp c0)).rows } := by
      conv => lhs; rw [hcs]
      rw [daskPass, hcs]
    rw [hdp]
    have hfil : (c.featCols ++ [idx] ++ ["time"] ++ [c0] ++ cs).filter (fun n => decide (n ≠ "time")) = c.featCols ++ [idx] ++ c.passCols := by
      have e1 : c.featCols.filter (fun n => decide (n ≠ "time")) = c.featCols := by
        rw [List.filter_eq_self]; intro n hn; simp only [decide_eq_true_eq]; rintro rfl; exact ht1 hn
      have e2 : cs.filter (fun n => decide (n ≠ "time")) = cs := by
        rw [List.filter_eq_self]; intro n hn; simp only [decide_eq_true_eq]; rintro rfl; exact ht3.2 hn
      simp only [List.filter_append, e1, e2, hcs]
      simp [List.filter_cons, hti, Ne.symm ht3.1]
    have hcolsF : (daskPass (D.order t (isort c.idLe (grp.map TRow.id))) (passTable idx t c.passCols grp) 1 cs
          { outerJoin { cols := c.featCols ++ [idx] ++ ["time"], rows := ((daskFrame (c.featCols ++ [idx]) rows).rows).map fun r => r.put [("time", .num t)] } (passTable idx t c.passCols grp c0) with
            rows := D.order t (isort c.idLe (grp.map TRow.id)) 0 (outerJoin { cols := c.featCols ++ [idx] ++ ["time"], rows := ((daskFrame (c.featCols ++ [idx]) rows).rows).map fun r => r.put [("time", .num t)] } (passTable idx t c.passCols grp c0)).rows }).cols.filter (fun n => decide (n ≠ "time")) = c.featCols ++ [idx] ++ c.passCols := by
      rw [hg1, h1]
      exact hfil
    refine ⟨fun tb htb => ?_, ?_⟩
    · rw [List.mem_singleton.mp htb]
      exact hcolsF
    · rw [List.flatMap_cons, List.flatMap_nil, List.append_nil]
      simp only [tableCells]
      rw [hcolsF]
      refine (hg2.map _).trans (.of_eq ?_)
      rw [List.map_map, ← flatMap_single]
      apply flatMap_congr'
      intro r hr
      simp only [Function.comp]
      have hpassr : c.passCols.map (g r) = r.pass := by
        conv => rhs; rw [← hcell r hr]
        apply List.map_congr_left
        intro n hn
        rw [hcs] at hn
        rcases List.mem_cons.mp hn with rfl | hn
        · rw [(hg3 r hr).1 n hpnd.1]
          by_cases hp : P r = true
          · simp only [f1, hp, if_true]
            rw [put_mem _ _ n (passRow idx t c.passCols n r n) (by simp) (by simp), passRow_cell hidxpass.1 (Ne.symm ht3.1)]
          · simp only [f1, hp, if_false]
            exact passRow_cell hidxpass.1 (Ne.symm ht3.1) r
        · exact (hg3 r hr).2 n hn
      have hother : ∀ n ∈ c.featCols ++ [idx], g r n = f1 r n := by
        intro n hn
        refine (hg3 r hr).1 n fun h => ?_
        rcases List.mem_append.mp hn with hn | hn
        · exact hfeatpass n (by simp [h]) hn
        · rw [List.mem_singleton.mp hn] at h
          exact hidxpass.2 h
      rw [List.map_append, hpassr]
      unfold rowAnswer daskAnswer
      rw [ht r hr, if_neg hpass]
      by_cases hp : r.id ∈ (worldAt c.env t).ids c.entity
      · have hp' : P r = true := decide_eq_true hp
        rw [if_pos hp]
        congr 2
        refine Eq.trans ?_ (hbase r hr hp')
        apply List.map_congr_left
        intro n hn
        rw [hother n hn]
        simp only [f1, hp', if_true]
        rw [put_absent]
        intro v hv
        simp only [List.mem_singleton, Prod.mk.injEq] at hv
        rw [hv.1] at hn
        rcases List.mem_append.mp hn with hn | hn
        · exact hfeatpass c0 (by simp) hn
        · exact hidxpass.1 (List.mem_singleton.mp hn).symm
      · have hp' : P r = false := decide_eq_false hp
        rw [if_neg hp]
        congr 2
        rw [List.map_append]
        congr 1
        · apply List.map_congr_left
          intro n hn
          rw [hother n (by simp; exact .inl hn)]
          simp only [f1, hp', Bool.false_eq_true, if_false]
          exact passRow_other (fun h => by rw [h] at hn; exact hidxfeat hn) (fun h => by rw [h] at hn; exact ht1 hn)
            (fun h => by rw [h] at hn; exact hfeatpass c0 (by simp) hn) r
        · rw [List.map_singleton, hother idx (by simp), (hf1 r hr).1]

theorem daskExact_ok {D : DaskChoice} {c : Call} {idx : String} (size : Option Nat) (hs : ∀ k, size = some k → 0 < k) (rows : List TRow)
    (hne : rows ≠ []) (H : DaskRows D c idx rows) :
    ∃ ts, daskExact D c idx size rows = .ok ts ∧ ts ≠ [] ∧
      Renders (c.featCols ++ [idx] ++ c.passCols) ts (rows.flatMap (rowAnswer c)) := by
  have hgne := groupByKey_ne_nil (key := TRow.time) hne
  have hge : (groupByKey TRow.time rows).isEmpty = false := by simpa using hgne
  obtain ⟨ts, h1, h2, h3, h4⟩ := concatAll_renders (c.featCols ++ [idx] ++ c.passCols)
    (fun g : Int × List TRow => match pieces size (groupByKey TRow.time g.2) with
      | .error e => .error e
      | .ok ps => concatAll (fun p => (daskPiece D c idx p.1 p.2).map fun t => [t]) ps)
    (fun g => g.2.flatMap (rowAnswer c)) (groupByKey TRow.time rows) (by
      intro g hgm
      obtain ⟨hgn, hsub, _⟩ := mem_groupByKey hgm
      obtain ⟨ps, hps, h1, h2⟩ := pieces_sub size hs (groupByKey TRow.time g.2) fun x hx => (mem_groupByKey hx).1
      simp only [hps]
      have hpn : ps ≠ [] := by
        rintro rfl
        have := groupByKey_perm TRow.time g.2
        rw [← h2] at this
        exact hgn (List.perm_nil.mp this.symm)
      obtain ⟨ts, h3, h4, h5, h6⟩ := concatAll_renders (c.featCols ++ [idx] ++ c.passCols)
        (fun p : Int × List TRow => (daskPiece D c idx p.1 p.2).map fun t => [t]) (fun p => p.2.flatMap (rowAnswer c)) ps (by
          intro p hpm
          obtain ⟨hpne, g', hg', he, hs'⟩ := h1 p hpm
          obtain ⟨_, hsub', htime⟩ := mem_groupByKey hg'
          obtain ⟨tb, htb, hr⟩ := daskPiece_ok hpne (fun r hr => he ▸ htime r (hs'.subset hr)) (H.sub (hs'.trans (hsub'.trans hsub)))
          exact ⟨[tb], by rw [htb]; rfl, by simp, hr⟩)
      refine ⟨ts, h3, h4 hpn, h5, h6.trans ?_⟩
      rw [← List.flatMap_assoc, h2]
      exact (groupByKey_perm TRow.time g.2).flatMap_right _)
  refine ⟨ts, ?_, h2 hgne, h3, h4.trans ?_⟩
  · unfold daskExact
    simp only [hge, Bool.false_eq_true, if_false]
    exact h1
  · rw [← List.flatMap_assoc]
    exact (groupByKey_perm TRow.time rows).flatMap_right _

theorem daskConcat_renders {cols : List String} {ts : List Table} {rows : List (List Val)} (hne : ts ≠ []) (h : Renders cols ts rows) :
    (daskConcat ts).cols = cols ∧ (daskConcat ts).rows.Perm rows := by
  obtain ⟨t, ts, rfl⟩ := List.exists_cons_of_ne_nil hne
  exact ⟨h.1 t (by simp), h.2⟩

/-- A single time. -/
theorem daskSingle_ok {D : DaskChoice} {c : Call} {idx : String} {t : Int} {ids : List Val} (F : FairChoice D) (hw : c.env.window = none)
    (hnull : ∃ i ∈ ids, i ≠ .null) (hcols : (c.featCols ++ [idx]).Nodup) (R : RegularAt c.env c.targets c.entity t)
    (hdask : ∀ t ids f, NeededBy c.targets f → DaskFeature (D.arrange t ids) f) :
    ∃ ts, daskSingle D c idx t ids = .ok ts ∧ ts ≠ [] ∧ Renders (c.featCols ++ [idx]) ts
      ((((worldAt c.env t).ids c.entity).filter (· ∈ ids)).map fun id => (c.targets.flatMap fun f => meaning (worldAt c.env t) f id) ++ [id]) := by
  obtain ⟨rows, hrun, hrows⟩ := C78_values_partial (F t ids).1 R hw (hdask t ids) _ hnull
  have hall : (ids.all fun i => decide (i = .null)) = false := by
    obtain ⟨i, hi, hn⟩ := hnull
    rw [Bool.eq_false_iff]
    intro h
    exact hn (by simpa using List.all_eq_true.mp h i hi)
  refine ⟨[daskFrame (c.featCols ++ [idx]) rows], ?_, by simp, fun t ht => by rw [List.mem_singleton.mp ht]; rfl, ?_⟩
  · unfold daskSingle
    rw [show runDask (D.arrange t ids) (c.at t c.env.window) c.targets c.entity ids = .ok rows from hrun]
    simp only [hall, Bool.false_eq_true, if_false]
  · simp only [List.flatMap_cons, List.flatMap_nil, List.append_nil, tableCells, daskFrame, List.map_map]
    refine (hrows.map _).trans (.of_eq ?_)
    rw [List.map_map]
    apply List.map_congr_left
    intro id hid
    refine cells_ofList hcols ?_
    have hv := (List.mem_filter.mp hid).1
    simp only [List.length_append, List.length_singleton, Nat.add_right_cancel_iff]
    show (c.targets.flatMap Feat.names).length = _
    rw [List.length_flatMap, List.length_flatMap]
    congr 1
    apply List.map_congr_left
    intro f hf
    exact (meaning_length R f hf id hv).symm

end FT
