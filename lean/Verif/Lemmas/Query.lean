import Verif.Spec.Query
namespace FT
open FT.Spec

theorem mem_dedup {α : Type} [DecidableEq α] (l : List α) (x : α) : x ∈ dedup l ↔ x ∈ l := by
  induction l with
  | nil => simp [dedup]
  | cons a l ih =>
    simp only [dedup, List.mem_cons, List.mem_filter, ih, decide_eq_true_eq]
    by_cases h : x = a <;> simp [h]

theorem nodup_dedup {α : Type} [DecidableEq α] (l : List α) : (dedup l).Nodup := by
  induction l with
  | nil => simp [dedup]
  | cons a l ih =>
    simp only [dedup, List.nodup_cons, List.mem_filter, decide_eq_true_eq, not_and]
    exact ⟨fun _ h => h rfl, ih.filter _⟩

theorem mem_dropna (l : List Val) (x : Val) : x ∈ dropna l ↔ x ∈ l ∧ x ≠ .null := by
  simp [dropna]

theorem Val.le_iff (v : Val) (t : Int) : v.le t = true ↔ TimeIs (· ≤ t) v := by
  cases v <;> simp [Val.le, TimeIs]
theorem Val.lt_iff (v : Val) (t : Int) : v.lt t = true ↔ TimeIs (· < t) v := by
  cases v <;> simp [Val.lt, TimeIs]
theorem Val.ge_iff (v : Val) (t : Int) : v.ge t = true ↔ TimeIs (t ≤ ·) v := by
  cases v <;> simp [Val.ge, TimeIs]
theorem Val.gt_iff (v : Val) (t : Int) : v.gt t = true ↔ TimeIs (t < ·) v := by
  cases v <;> simp [Val.gt, TimeIs]

/-- The window as the specification sees it. -/
def Window.start? : Option Window → Option (Int → Int)
  | some (.span s) => some s
  | _ => none

theorem ge_gt_if (b : Bool) (v : Val) (t : Int) :
    (if b then v.gt t else v.ge t) = true ↔ TimeIs (fun n => if b then t < n else t ≤ n) v := by
  cases b <;> simp [Val.gt_iff, Val.ge_iff]

theorem le_lt_if (b : Bool) (v : Val) (t : Int) :
    (if b then v.le t else v.lt t) = true ↔ TimeIs (fun n => if b then n ≤ t else n < t) v := by
  cases b <;> simp [Val.le_iff, Val.lt_iff]

/-- Boolean form of `BeforeCutoff`. -/
def beforeB (e : Ent) (tl : Option Int) (incl : Bool) (r : Row) : Bool :=
  match e.timeIndex, tl with
  | some ti, some t => if incl then (r ti).le t else (r ti).lt t
  | _, _ => true

/-- Boolean form of `InWindow`. -/
def windowB (e : Ent) (tl : Option Int) (w : Option (Int → Int)) (incl : Bool) (r : Row) : Bool :=
  match e.timeIndex, tl, w with
  | some ti, some t, some s =>
    (if incl then (r ti).gt (s t) else (r ti).ge (s t)) ||
    (if incl then (lastTime e r).gt (s t) else (lastTime e r).ge (s t))
  | _, _, _ => true

theorem beforeB_iff (e tl incl r) : beforeB e tl incl r = true ↔ BeforeCutoff e tl incl r := by
  unfold beforeB BeforeCutoff
  split
  · rename_i ti t h1
    rw [le_lt_if]; simp [h1]
  · rename_i h
    simp only [true_iff]
    intro ti t h1 h2; exact absurd h2 (fun h2 => h ti t h1 h2)

theorem windowB_iff (e tl w incl r) : windowB e tl w incl r = true ↔ InWindow e tl w incl r := by
  unfold windowB InWindow
  split
  · rename_i ti t s h1
    rw [Bool.or_eq_true, ge_gt_if, ge_gt_if]; simp [h1]
  · rename_i h
    simp only [true_iff]
    intro ti t s h1 h2 h3; exact absurd h3 (fun h3 => h ti t s h1 h2 h3)

theorem handleTimeIndex_eq (e : Ent) (rows : List Row) (tl : Option Int) (w : Option Window) (incl : Bool)
    (hw : w.all Window.hasNoObservations = true) :
    handleTimeIndex e rows tl w incl =
      .ok (rows.filter fun r => beforeB e tl incl r && windowB e tl (Window.start? w) incl r) := by
  unfold handleTimeIndex beforeB windowB
  cases hti : e.timeIndex with
  | none => simp only [Bool.and_true]; rw [List.filter_eq_self.mpr (by simp)]
  | some ti =>
    cases tl with
    | none => simp only [Bool.and_true]; rw [List.filter_eq_self.mpr (by simp)]
    | some t =>
      simp only
      by_cases hr : rows = []
      · subst hr; simp
      have hne : rows.isEmpty = false := by simp [hr]
      simp only [hne, Bool.false_eq_true, if_false]
      have hflip : ∀ (p q : Row → Bool), rows.filter (fun r => p r && q r) = (rows.filter p).filter q := by
        intro p q; rw [List.filter_filter]; congr 1; funext r; rw [Bool.and_comm]
      rw [hflip]
      have hif : ∀ (p q : Row → Bool), (if incl = true then rows.filter p else rows.filter q) =
          rows.filter (fun r => if incl = true then p r else q r) := by
        intro p q; cases incl <;> rfl
      rw [hif]
      cases w with
      | none => simp [Window.start?]
      | some w =>
        cases w with
        | obs n => simp [Window.hasNoObservations] at hw
        | span s =>
          simp only [Window.start?, lastTime, ltiOf]
          cases hl : e.lti with
          | none =>
            simp only
            congr 2; funext r
            have : (if incl = true then Val.null.gt (s t) else Val.null.ge (s t)) = false := by
              cases incl <;> rfl
            rw [this, Bool.or_false]
          | some l => simp only

/-- Applying all secondary masks to one row. -/
def maskAll (tl : Option Int) (secs : List (String × List String)) (r : Row) : Row :=
  match tl with
  | none => r
  | some t => secs.foldl (fun r s => maskRow t s r) r

theorem handleSecondary_eq (e : Ent) (rows : List Row) (tl : Option Int) :
    handleSecondary e rows tl = rows.map (maskAll tl e.secondary) := by
  unfold handleSecondary
  cases tl with
  | none =>
    have : ∀ (secs : List (String × List String)),
      secs.foldl (fun (rows : List Row) (_ : String × List String) => rows) rows = rows := by
        intro secs; induction secs with
        | nil => rfl
        | cons s ss ih => exact ih
    rw [this]; exact (List.map_id rows).symm
  | some t =>
    generalize e.secondary = secs
    induction secs generalizing rows with
    | nil => exact (List.map_id rows).symm
    | cons s ss ih =>
      simp only [List.foldl_cons]
      have : (if rows.isEmpty = true then rows else rows.map (maskRow t s)) = rows.map (maskRow t s) := by
        cases rows <;> simp
      rw [this, ih, List.map_map]
      rfl

/-- No secondary time column is itself hidden by an earlier secondary time index. -/
def SecondaryIndependent : List (String × List String) → Prop
  | [] => True
  | s :: ss => (∀ s' ∈ ss, s'.1 ∉ s.2) ∧ SecondaryIndependent ss

theorem maskFold_spec (t : Int) (secs : List (String × List String)) (h : SecondaryIndependent secs) :
    ∀ (r : Row) (c : String),
    ((∃ sec ∈ secs, c ∈ sec.2 ∧ TimeIs (t ≤ ·) (r sec.1)) → secs.foldl (fun r s => maskRow t s r) r c = .null) ∧
    ((¬ ∃ sec ∈ secs, c ∈ sec.2 ∧ TimeIs (t ≤ ·) (r sec.1)) → secs.foldl (fun r s => maskRow t s r) r c = r c) := by
  induction secs with
  | nil => simp
  | cons s ss ih =>
    intro r c
    obtain ⟨h1, h2⟩ := h
    have hsame : ∀ s' ∈ ss, maskRow t s r s'.1 = r s'.1 := by
      intro s' hs'
      unfold maskRow; split
      · simp [h1 s' hs']
      · rfl
    obtain ⟨ia, ib⟩ := ih h2 (maskRow t s r) c
    have hcongr : (∃ sec ∈ ss, c ∈ sec.2 ∧ TimeIs (t ≤ ·) (maskRow t s r sec.1)) ↔
        (∃ sec ∈ ss, c ∈ sec.2 ∧ TimeIs (t ≤ ·) (r sec.1)) := by
      constructor
      · rintro ⟨x, hx, hc, ht⟩; exact ⟨x, hx, hc, hsame x hx ▸ ht⟩
      · rintro ⟨x, hx, hc, ht⟩; exact ⟨x, hx, hc, by rw [hsame x hx]; exact ht⟩
    rw [hcongr] at ia ib
    simp only [List.foldl_cons]
    by_cases hss : ∃ sec ∈ ss, c ∈ sec.2 ∧ TimeIs (t ≤ ·) (r sec.1)
    · refine ⟨fun _ => ia hss, fun hn => absurd ?_ hn⟩
      obtain ⟨x, hx, hh⟩ := hss
      exact ⟨x, by simp [hx], hh⟩
    · rw [ib hss]
      unfold maskRow
      constructor
      · rintro ⟨x, hx, hc, ht⟩
        rcases List.mem_cons.mp hx with rfl | hx
        · rw [if_pos ((Val.ge_iff _ _).mpr ht)]; simp [hc]
        · exact absurd ⟨x, hx, hc, ht⟩ hss
      · intro hn
        split
        · rename_i hge
          have : c ∉ s.2 := fun hc => hn ⟨s, by simp, hc, (Val.ge_iff _ _).mp hge⟩
          simp [this]
        · rfl

theorem maskAll_spec (e : Ent) (tl : Option Int) (h : SecondaryIndependent e.secondary) (r : Row) :
    ShowsRow e tl r (maskAll tl e.secondary r) := by
  intro c
  cases tl with
  | none =>
    simp [maskAll, NotYetKnown]
  | some t =>
    have := maskFold_spec t e.secondary h r c
    simpa [maskAll, NotYetKnown] using this

/-- Boolean form of `Wanted`. -/
def wantedB (vals : Option (List Val)) (col : String) (r : Row) : Bool :=
  match vals with
  | none => true
  | some l => decide (r col ∈ l) && decide (r col ≠ .null)

theorem wantedB_iff (vals col r) : wantedB vals col r = true ↔ Wanted vals col r := by
  unfold wantedB Wanted
  cases vals <;> simp

theorem selectRows_eq (e : Ent) (vals : Option (List Val)) (var : String)
    (hv : vals ≠ none → var ∈ e.df.cols) :
    selectRows e (valsToSeries vals) var = .ok (e.df.rows.filter (wantedB vals var)) := by
  cases vals with
  | none => simp only [valsToSeries, selectRows, Option.map_none]; rw [List.filter_eq_self.mpr (by simp [wantedB])]
  | some l =>
    have hm : wantedB (some l) var = fun r : Row => (dropna (dedup l)).contains (r var) := by
      funext r
      rw [Bool.eq_iff_iff, List.contains_iff_mem, mem_dropna, mem_dedup, wantedB_iff]
      simp [Wanted]
    rw [hm]
    simp only [valsToSeries, Option.map_some]
    cases dropna (dedup l) with
    | nil => simp [selectRows]
    | cons a l' => simp [selectRows, hv (by simp)]

/-- Everything `query_by_values` returns, in one equation. -/
theorem queryByValues_eq (e : Ent) (vals : Option (List Val)) (var : Option String) (cols : Option (List String))
    (tl : Option Int) (w : Option Window) (incl : Bool)
    (hw : w.all Window.hasNoObservations = true) (hv : vals ≠ none → var.getD e.index ∈ e.df.cols)
    (hc : ∀ cs, cols = some cs → ∀ c ∈ cs, c ∈ e.df.cols) :
    queryByValues e vals var cols tl w incl = .ok
      { cols := cols.getD e.df.cols
        rows := (e.df.rows.filter fun r => wantedB vals (var.getD e.index) r &&
            (beforeB e tl incl r && windowB e tl (Window.start? w) incl r)).map (maskAll tl e.secondary) } := by
  unfold queryByValues
  rw [if_pos hw, selectRows_eq e vals _ hv]
  simp only [bind, Except.bind, handleTime, handleTimeIndex_eq _ _ _ _ _ hw, handleSecondary_eq, pure, Except.pure,
    List.filter_filter]
  have : (fun a : Row => (beforeB e tl incl a && windowB e tl (Window.start? w) incl a) && wantedB vals (var.getD e.index) a)
     = (fun a => wantedB vals (var.getD e.index) a && (beforeB e tl incl a && windowB e tl (Window.start? w) incl a)) := by
    funext a; rw [Bool.and_comm]
  rw [this]
  cases cols with
  | none => rfl
  | some cs =>
    have : (cs.all fun c => e.df.cols.contains c) = true := by
      simp only [List.all_eq_true, List.contains_iff_mem]; exact hc cs rfl
    simp only [selectColumns, Table.select, this, if_true, Option.getD_some]

end FT
