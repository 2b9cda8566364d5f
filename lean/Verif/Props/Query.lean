import Verif.Lemmas.Query
/-!
# C08-C11: what a query returns
-/
namespace FT
open FT.Spec
open Classical in
/-- C08. Without a cutoff, a query returns exactly the wanted rows, unchanged, in table order, restricted to
the requested columns.  (`Wanted`: everything when no values are given, otherwise a non-missing value in the list.) -/
theorem C08_query_exact (e : Ent) (vals : Option (List Val)) (var : Option String) (cols : Option (List String))
    (incl : Bool) (hv : vals ≠ none → var.getD e.index ∈ e.df.cols)
    (hc : ∀ cs, cols = some cs → ∀ c ∈ cs, c ∈ e.df.cols) :
    queryByValues e vals var cols none none incl = .ok
      { cols := cols.getD e.df.cols
        rows := e.df.rows.filter fun r => decide (Wanted vals (var.getD e.index) r) } := by
  rw [queryByValues_eq e vals var cols none none incl rfl hv hc]
  congr 2
  have h1 : maskAll none e.secondary = id := by funext r; rfl
  rw [h1, List.map_id]
  congr 1; funext r
  have : wantedB vals (var.getD e.index) r = decide (Wanted vals (var.getD e.index) r) := by
    rw [Bool.eq_iff_iff, wantedB_iff, decide_eq_true_eq]
  rw [this]
  simp only [beforeB, windowB, Window.start?]
  cases e.timeIndex <;> simp

/-- C08. The order and the repetition of the requested values are irrelevant. -/
theorem C08_query_values_as_set (e : Ent) (l l' : List Val) (var : Option String) (cols : Option (List String))
    (tl : Option Int) (w : Option Window) (incl : Bool) (h : ∀ v, v ∈ l ↔ v ∈ l')
    (hv : var.getD e.index ∈ e.df.cols) (hc : ∀ cs, cols = some cs → ∀ c ∈ cs, c ∈ e.df.cols) :
    queryByValues e (some l) var cols tl w incl = queryByValues e (some l') var cols tl w incl := by
  by_cases hw : w.all Window.hasNoObservations = true
  · rw [queryByValues_eq e _ var cols tl w incl hw (fun _ => hv) hc,
      queryByValues_eq e _ var cols tl w incl hw (fun _ => hv) hc]
    have : ∀ c r, wantedB (some l) c r = wantedB (some l') c r := by
      intro c r; rw [Bool.eq_iff_iff, wantedB_iff, wantedB_iff]; simp [Wanted, h]
    simp only [this]
  · simp [queryByValues, hw]

/-- C08. Asking for an unknown column, or matching on one, is a `KeyError`. -/
theorem C08_query_unknown_variable (e : Ent) (l : List Val) (var : String) (cols : Option (List String))
    (tl : Option Int) (incl : Bool) (hl : ∃ v ∈ l, v ≠ .null) (hv : var ∉ e.df.cols) :
    queryByValues e (some l) (some var) cols tl none incl = .error .keyError := by
  obtain ⟨v, hv1, hv2⟩ := hl
  have hm : v ∈ dropna (dedup l) := (mem_dropna _ _).mpr ⟨(mem_dedup _ _).mpr hv1, hv2⟩
  have : selectRows e (valsToSeries (some l)) var = .error .keyError := by
    simp only [valsToSeries, Option.map_some]
    cases h : dropna (dedup l) with
    | nil => rw [h] at hm; simp at hm
    | cons a l' => simp [selectRows, hv]
  simp [queryByValues, this, bind, Except.bind]

theorem C08_query_unknown_column (e : Ent) (vals : Option (List Val)) (var : Option String) (cs : List String)
    (tl : Option Int) (incl : Bool) (c : String) (hc : c ∈ cs) (hn : c ∉ e.df.cols) :
    queryByValues e vals var (some cs) tl none incl = .error .keyError := by
  have hs : ∀ rows, selectColumns e (some cs) rows = .error .keyError := by
    intro rows
    have : ¬ (cs.all fun c => e.df.cols.contains c) = true := by
      simp only [List.all_eq_true, List.contains_iff_mem]; exact fun h => hn (h c hc)
    simp only [selectColumns, Table.select]
    rw [if_neg this]
  have hsel : ∀ v, selectRows e (valsToSeries vals) v = .error .keyError ∨
      ∃ rows, selectRows e (valsToSeries vals) v = .ok rows := by
    intro v; cases h : selectRows e (valsToSeries vals) v with
    | error err =>
      left; unfold selectRows at h; split at h <;> try cases h
      split at h <;> cases h; rfl
    | ok r => right; exact ⟨r, rfl⟩
  simp only [queryByValues, Option.all_none, if_true]
  rcases hsel (var.getD e.index) with h | ⟨rows, h⟩
  · simp [h, bind, Except.bind]
  · simp [h, bind, Except.bind, handleTime, handleTimeIndex_eq e rows tl none incl rfl, pure, Except.pure, hs]

open Classical in
/-- C09, C10, C11. With a cutoff (and possibly a training window), a query returns exactly the wanted rows that are
not after the cutoff and are inside the window, in table order, each with exactly its not-yet-known cells blanked.

Partial: the claim about cells needs that no secondary time column is hidden by another secondary time index
(`SecondaryIndependent`); see `C11_chained_secondary_leaks`. -/
theorem C11_secondary_exact_partial (e : Ent) (vals : Option (List Val)) (var : Option String)
    (cols : Option (List String)) (tl : Option Int) (w : Option (Int → Int)) (incl : Bool)
    (hv : vals ≠ none → var.getD e.index ∈ e.df.cols)
    (hc : ∀ cs, cols = some cs → ∀ c ∈ cs, c ∈ e.df.cols)
    (hs : SecondaryIndependent e.secondary) :
    ∃ shown : Row → Row, (∀ r, ShowsRow e tl r (shown r)) ∧
    queryByValues e vals var cols tl (w.map .span) incl = .ok
      { cols := cols.getD e.df.cols
        rows := (e.df.rows.filter fun r => decide
          (Wanted vals (var.getD e.index) r ∧ BeforeCutoff e tl incl r ∧ InWindow e tl w incl r)).map shown } := by
  refine ⟨maskAll tl e.secondary, maskAll_spec e tl hs, ?_⟩
  have hw : (w.map Window.span).all Window.hasNoObservations = true := by cases w <;> rfl
  have hst : Window.start? (w.map Window.span) = w := by cases w <;> rfl
  rw [queryByValues_eq e vals var cols tl _ incl hw hv hc, hst]
  congr 4; funext r
  rw [Bool.eq_iff_iff, decide_eq_true_eq, Bool.and_eq_true, Bool.and_eq_true, wantedB_iff, beforeB_iff, windowB_iff]

open Classical in
/-- C09. Rows returned at a cutoff on an entity without secondary time indexes: exactly the wanted rows not after it. -/
theorem C09_cutoff_exact (e : Ent) (vals : Option (List Val)) (t : Int) (incl : Bool)
    (hv : e.index ∈ e.df.cols) (hs : e.secondary = []) :
    queryByValues e vals none none (some t) none incl = .ok
      { cols := e.df.cols
        rows := e.df.rows.filter fun r => decide (Wanted vals e.index r ∧ BeforeCutoff e (some t) incl r) } := by
  rw [queryByValues_eq e vals none none (some t) none incl rfl (fun _ => hv) (by simp), hs]
  congr 2
  have h1 : maskAll (some t) [] = id := by funext r; rfl
  rw [h1, List.map_id]
  congr 1; funext r
  have : windowB e (some t) (Window.start? none) incl r = true := by
    simp only [windowB, Window.start?]; cases e.timeIndex <;> rfl
  rw [this, Bool.eq_iff_iff, decide_eq_true_eq, Bool.and_eq_true, Bool.and_true, wantedB_iff, beforeB_iff]
  simp

/-- C09. Moving the cutoff later never hides a row; nor does including the cutoff itself. -/
theorem C09_cutoff_monotone (e : Ent) (t t' : Int) (incl incl' : Bool) (r : Row) (ht : t ≤ t')
    (hi : incl = true → incl' = true ∨ t < t') (h : BeforeCutoff e (some t) incl r) :
    BeforeCutoff e (some t') incl' r := by
  intro ti t'' h1 h2
  cases h2
  obtain ⟨n, hn, hp⟩ := h ti t h1 rfl
  refine ⟨n, hn, ?_⟩
  cases incl <;> cases incl' <;> simp at * <;> omega

/-- C09. A row without a time is hidden by every cutoff; an entity without a time index is never restricted. -/
theorem C09_missing_time_hidden (e : Ent) (ti : String) (t : Int) (incl : Bool) (r : Row)
    (h : e.timeIndex = some ti) (hn : r ti = .null) : ¬ BeforeCutoff e (some t) incl r := by
  intro hb
  obtain ⟨n, he, _⟩ := hb ti t h rfl
  rw [hn] at he; cases he

theorem C09_no_time_index (e : Ent) (vals : Option (List Val)) (var : Option String) (cols : Option (List String))
    (tl : Option Int) (w : Option (Int → Int)) (incl : Bool) (h : e.timeIndex = none) (hs : e.secondary = [])
    (hv : vals ≠ none → var.getD e.index ∈ e.df.cols) (hc : ∀ cs, cols = some cs → ∀ c ∈ cs, c ∈ e.df.cols) :
    queryByValues e vals var cols tl (w.map .span) incl = queryByValues e vals var cols none none incl := by
  have hw : (w.map Window.span).all Window.hasNoObservations = true := by cases w <;> rfl
  rw [queryByValues_eq e vals var cols tl _ incl hw hv hc, queryByValues_eq e vals var cols none none incl rfl hv hc]
  simp only [beforeB, windowB, h, hs]
  cases tl <;> rfl

open Classical in
/-- C10. With a training window starting at `start t`, exactly the wanted rows before the cutoff that are themselves
inside the window, or have a later event inside it, are returned. -/
theorem C10_window_exact (e : Ent) (vals : Option (List Val)) (t : Int) (start : Int → Int) (incl : Bool)
    (hv : e.index ∈ e.df.cols) (hs : e.secondary = []) :
    queryByValues e vals none none (some t) (some (.span start)) incl = .ok
      { cols := e.df.cols
        rows := e.df.rows.filter fun r => decide
          (Wanted vals e.index r ∧ BeforeCutoff e (some t) incl r ∧ InWindow e (some t) (some start) incl r) } := by
  rw [queryByValues_eq e vals none none (some t) _ incl rfl (fun _ => hv) (by simp), hs]
  congr 2
  have h1 : maskAll (some t) [] = id := by funext r; rfl
  rw [h1, List.map_id]
  congr 1; funext r
  rw [Bool.eq_iff_iff, decide_eq_true_eq, Bool.and_eq_true, Bool.and_eq_true, wantedB_iff, beforeB_iff, windowB_iff]
  simp [Window.start?]

/-- C10. A larger window keeps a superset of the rows. -/
theorem C10_window_monotone (e : Ent) (t : Int) (start start' : Int → Int) (incl : Bool) (r : Row)
    (h : start' t ≤ start t) (hr : InWindow e (some t) (some start) incl r) :
    InWindow e (some t) (some start') incl r := by
  intro ti t'' s h1 h2 h3
  cases h2; cases h3
  rcases hr ti t start h1 rfl rfl with ⟨n, hn, hp⟩ | ⟨n, hn, hp⟩
  · left; refine ⟨n, hn, ?_⟩; cases incl <;> simp at * <;> omega
  · right; refine ⟨n, hn, ?_⟩; cases incl <;> simp at * <;> omega

/-- C10. Windows tile time: a row visible at `t` is either visible at the window's start, or inside the window, and
never both (entities without recorded last times). -/
theorem C10_windows_tile (e : Ent) (ti : String) (t : Int) (start : Int → Int) (incl : Bool) (r : Row)
    (hti : e.timeIndex = some ti) (hl : e.lti = none) (hst : start t ≤ t) :
    (BeforeCutoff e (some t) incl r ↔
      BeforeCutoff e (some (start t)) incl r ∨
        (BeforeCutoff e (some t) incl r ∧ InWindow e (some t) (some start) incl r)) ∧
    ¬ (BeforeCutoff e (some (start t)) incl r ∧ InWindow e (some t) (some start) incl r) := by
  have hin : InWindow e (some t) (some start) incl r ↔
      TimeIs (fun n => if incl then start t < n else start t ≤ n) (r ti) := by
    simp only [InWindow, hti, lastTime, hl]
    constructor
    · intro h
      rcases h ti t start rfl rfl rfl with h | ⟨n, h, _⟩
      · exact h
      · cases h
    · rintro h _ _ _ h1 h2 h3
      cases h1; cases h2; cases h3; exact .inl h
  have hb : ∀ t, BeforeCutoff e (some t) incl r ↔ TimeIs (fun n => if incl then n ≤ t else n < t) (r ti) := by
    intro t; simp [BeforeCutoff, hti]
  rw [hin, hb, hb]
  constructor
  · constructor
    · rintro ⟨n, hn, hp⟩
      by_cases hc : (if incl then n ≤ start t else n < start t)
      · exact .inl ⟨n, hn, hc⟩
      · right; refine ⟨⟨n, hn, hp⟩, n, hn, ?_⟩
        cases incl <;> simp at * <;> omega
    · rintro (⟨n, hn, hp⟩ | ⟨h, _⟩)
      · refine ⟨n, hn, ?_⟩; cases incl <;> simp at * <;> omega
      · exact h
  · rintro ⟨⟨n, hn, hp⟩, ⟨m, hm, hq⟩⟩
    rw [hn] at hm; cases hm
    cases incl <;> simp at * <;> omega

/-- C10. A window in observations is rejected. -/
theorem C10_window_observations_rejected (e : Ent) (vals : Option (List Val)) (var : Option String)
    (cols : Option (List String)) (tl : Option Int) (n : Nat) (incl : Bool) :
    queryByValues e vals var cols tl (some (.obs n)) incl = .error .assertionError := rfl

/-- Demo: an entity with a time index and a secondary time index. -/
def demoEnt : Ent :=
  { id := "log", index := "id", timeIndex := some "time", secondary := [("end", ["result", "end"])], lti := none
    df := { cols := ["id", "time", "end", "result"]
            rows := [Row.ofList [("id", .num 0), ("time", .num 1), ("end", .num 3), ("result", .str "a")],
                     Row.ofList [("id", .num 1), ("time", .num 2), ("end", .num 9), ("result", .str "b")],
                     Row.ofList [("id", .num 2), ("time", .num 7), ("end", .num 8), ("result", .str "c")],
                     Row.ofList [("id", .num 3)]] } }

def showTable (x : Except PyErr Table) : Option (List (List Val)) :=
  match x with
  | .ok t => some (t.rows.map fun r => t.cols.map r)
  | .error _ => none

example : SecondaryIndependent demoEnt.secondary := by simp [demoEnt, SecondaryIndependent]
/-- The hypotheses of the theorems above hold for `demoEnt` and the answer is not trivial. -/
example : showTable (queryByValues demoEnt none none (some ["id", "result"]) (some 5) (some (.span (· - 4))) true) =
    some [[.num 1, .null]] := by decide
example : showTable (queryByValues demoEnt none none (some ["id", "result"]) (some 5) none true) =
    some [[.num 0, .str "a"], [.num 1, .null]] := by decide
example : showTable (queryByValues demoEnt (some [.num 2, .null, .num 1, .num 1]) none (some ["id"]) none none true) =
    some [[.num 1], [.num 2]] := by decide

def chainedRow : Row := Row.ofList [("id", .num 0), ("a", .num 10), ("b", .num 20), ("c", .str "future")]

/-- An entity where the secondary time column `b` depends on the secondary time `a`. -/
def chainedEnt : Ent :=
  { id := "log", index := "id", timeIndex := none, secondary := [("a", ["b", "a"]), ("b", ["c", "b"])], lti := none
    df := { cols := ["id", "a", "b", "c"]
            rows := [chainedRow] } }

/-- C11, negation: when one secondary time column is hidden by another secondary index, a cell whose secondary time
is after the cutoff is still shown. The full statement of C11 (without `SecondaryIndependent`) is false. -/
theorem C11_chained_secondary_leaks :
    ∃ (e : Ent) (t : Int) (r : Row) (out : Row),
      e.df.rows = [r] ∧ NotYetKnown e (some t) r "c" ∧
      (∃ tbl, queryByValues e none none none (some t) none true = .ok tbl ∧ tbl.rows = [out]) ∧
      out "c" = .str "future" := by
  refine ⟨chainedEnt, 5, chainedRow, maskAll (some 5) chainedEnt.secondary chainedRow, rfl, ?_, ⟨_, rfl, rfl⟩, by decide⟩
  exact ⟨("b", ["c", "b"]), by decide, by decide, 5, rfl, 20, by decide, by decide⟩

/-- C11, finding: `include_cutoff_time=True` makes rows dated exactly at the cutoff visible, but a column whose
secondary time is exactly the cutoff is hidden under either flag. -/
theorem C11_secondary_at_cutoff_hidden (e : Ent) (incl : Bool) (t : Int) (sec : String × List String) (r : Row)
    (c : String) (hs : e.secondary = [sec]) (hr : e.df.rows = [r]) (hc : c ∈ sec.2) (hn : e.timeIndex = none)
    (h : r sec.1 = .num t) :
    ∃ tbl out, queryByValues e none none none (some t) none incl = .ok tbl ∧ tbl.rows = [out] ∧ out c = .null := by
  refine ⟨_, maskAll (some t) e.secondary r,
    queryByValues_eq e none none none (some t) none incl rfl (by simp) (by simp), ?_, ?_⟩
  · simp [hr, wantedB, beforeB, windowB, hn]
  · simp [maskAll, hs, maskRow, h, Val.ge, hc]

end FT
