import Verif.Spec.Approx
import Verif.Lemmas.Plan
import Verif.Lemmas.Query
import Verif.Lemmas.FeatureGroup
/-! # Frames: rows with new columns, seen through the index -/
namespace FT
open Spec

theorem lookup_unique {β : Type} (c : String) (v : β) : ∀ l : List (String × β), (c, v) ∈ l → (∀ v', (c, v') ∈ l → v' = v) →
    l.lookup c = some v
  | [], h, _ => by cases h
  | (k, x) :: l, h, hu => by
    by_cases hk : c = k
    · subst hk
      have := hu x (by simp)
      simp [List.lookup, this]
    · have hb : (c == k) = false := by simpa using hk
      simp only [List.lookup, hb]
      refine lookup_unique c v l ?_ fun v' hv' => hu v' (by simp [hv'])
      rcases List.mem_cons.mp h with h | h
      · exact absurd (congrArg Prod.fst h) hk
      · exact h

theorem lookup_absent {β : Type} (c : String) : ∀ l : List (String × β), (∀ v, (c, v) ∉ l) → l.lookup c = none
  | [], _ => rfl
  | (k, x) :: l, h => by
    have hk : c ≠ k := fun hk => h x (by simp [hk])
    have hb : (c == k) = false := by simpa using hk
    simp only [List.lookup, hb]
    exact lookup_absent c l fun v hv => h v (by simp [hv])

theorem put_mem (r : Row) (cells : List (String × Val)) (c : String) (v : Val) (h : (c, v) ∈ cells)
    (hu : ∀ v', (c, v') ∈ cells → v' = v) : r.put cells c = v := by
  unfold Row.put
  rw [lookup_unique c v cells.reverse (by simpa using h) (by simpa using hu)]

theorem put_absent (r : Row) (cells : List (String × Val)) (c : String) (h : ∀ v, (c, v) ∉ cells) : r.put cells c = r c := by
  unfold Row.put
  rw [lookup_absent c cells.reverse (by simpa using h)]

theorem mem_addCols (new : List String) : ∀ (cols : List String) (c : String), c ∈ addCols cols new ↔ c ∈ cols ∨ c ∈ new := by
  induction new with
  | nil => simp [addCols]
  | cons n new ih =>
    intro cols c
    have : addCols cols (n :: new) = addCols (setAdd cols n) new := rfl
    rw [this, ih, mem_setAdd]
    simp only [List.mem_cons, or_assoc]

theorem hasCols_iff (t : Table) (cs : List String) : hasCols t cs = true ↔ ∀ c ∈ cs, c ∈ t.cols := by
  simp [hasCols]

/-- What is known of a frame: the ids of its rows, the base columns, the link columns (right where `lok` says) and the columns of
the features computed so far, whose meaning is `M`; there are no other columns. -/
structure FrameOk (w : World) (M : Feat → Val → List Val) (idx e : String) (B : List String) (L : List Link) (lok : Link → Val → Prop)
    (D : Feat → Prop) (I : List Val) (t : Table) : Prop where
  ids : t.rows.map (fun r => r idx) = I
  base : ∀ c ∈ B, c ∈ t.cols ∧ ∀ r ∈ t.rows, r c = w.cell e (r idx) c
  link : ∀ l ∈ L, l.1 ∈ t.cols ∧ ∀ r ∈ t.rows, lok l (r idx) → r l.1 = w.up l.2.1 (r idx)
  done : ∀ f, D f → (∀ n ∈ f.names, n ∈ t.cols) ∧ ∀ r ∈ t.rows, f.names.map r = M f (r idx)
  only : ∀ c ∈ t.cols, c ∈ B ∨ (∃ l ∈ L, l.1 = c) ∨ ∃ f, D f ∧ c ∈ f.names

/-- Adding the columns of some features to a frame, without touching the other columns. -/
theorem FrameOk.extend {w M idx e B L lok D I} {t : Table} (h : FrameOk w M idx e B L lok D I t) (hidx : idx ∈ B)
    (fs : List Feat) (t' : Table) (g : Nat → Row → Row)
    (hrows : t'.rows = t.rows.mapIdx g) (hcols : ∀ c, c ∈ t.cols → c ∈ t'.cols)
    (hcols' : ∀ c, c ∈ t'.cols → c ∈ t.cols ∨ ∃ f ∈ fs, c ∈ f.names)
    (hfcols : ∀ f ∈ fs, ∀ n ∈ f.names, n ∈ t'.cols)
    (hold : ∀ i r, t.rows[i]? = some r → ∀ c ∈ t.cols, g i r c = r c)
    (hnew : ∀ i r, t.rows[i]? = some r → ∀ f ∈ fs, f.names.map (g i r) = M f (r idx)) :
    FrameOk w M idx e B L lok (fun f => D f ∨ f ∈ fs) I t' := by
  have hmem : ∀ r' ∈ t'.rows, ∃ i r, t.rows[i]? = some r ∧ r ∈ t.rows ∧ r' = g i r := by
    intro r' hr'
    rw [hrows, List.mem_mapIdx] at hr'
    obtain ⟨i, hi, rfl⟩ := hr'
    exact ⟨i, _, List.getElem?_eq_getElem hi, List.getElem_mem hi, rfl⟩
  have hid : ∀ i r, t.rows[i]? = some r → g i r idx = r idx := fun i r hr => hold i r hr idx (h.base idx hidx).1
  refine ⟨?_, ?_, ?_, ?_, ?_⟩
  · rw [← h.ids, hrows]
    apply List.ext_getElem?
    intro i
    simp only [List.getElem?_map, List.getElem?_mapIdx]
    cases hr : t.rows[i]? with
    | none => rfl
    | some r => simp [hid i r hr]
  · intro c hc
    refine ⟨hcols c (h.base c hc).1, fun r' hr' => ?_⟩
    obtain ⟨i, r, hi, hr, rfl⟩ := hmem r' hr'
    rw [hid i r hi, hold i r hi c (h.base c hc).1]
    exact (h.base c hc).2 r hr
  · intro l hl
    refine ⟨hcols _ (h.link l hl).1, fun r' hr' hok => ?_⟩
    obtain ⟨i, r, hi, hr, rfl⟩ := hmem r' hr'
    rw [hid i r hi] at hok ⊢
    rw [hold i r hi _ (h.link l hl).1]
    exact (h.link l hl).2 r hr hok
  · intro f hf
    rcases hf with hf | hf
    · refine ⟨fun n hn => hcols n ((h.done f hf).1 n hn), fun r' hr' => ?_⟩
      obtain ⟨i, r, hi, hr, rfl⟩ := hmem r' hr'
      rw [hid i r hi, ← (h.done f hf).2 r hr]
      exact List.map_congr_left fun n hn => hold i r hi n ((h.done f hf).1 n hn)
    · refine ⟨hfcols f hf, fun r' hr' => ?_⟩
      obtain ⟨i, r, hi, hr, rfl⟩ := hmem r' hr'
      rw [hid i r hi]
      exact hnew i r hi f hf
  · intro c hc
    rcases hcols' c hc with hc | ⟨f, hf, hn⟩
    · rcases h.only c hc with h | h | ⟨f, hf, hn⟩
      · exact .inl h
      · exact .inr (.inl h)
      · exact .inr (.inr ⟨f, .inl hf, hn⟩)
    · exact .inr (.inr ⟨f, .inr hf, hn⟩)

/-- Filtering rows by what is known of their ids. -/
theorem filter_ids {β : Type} (idx : String) (P : Row → Bool) (P' : Val → Bool) (v : Row → β) (v' : Val → β) (rows : List Row)
    (hP : ∀ r ∈ rows, P r = P' (r idx)) (hv : ∀ r ∈ rows, v r = v' (r idx)) :
    (rows.filter P).map v = ((rows.map fun r => r idx).filter P').map v' := by
  induction rows with
  | nil => rfl
  | cons r rows ih =>
    have ih := ih (fun r hr => hP r (by simp [hr])) (fun r hr => hv r (by simp [hr]))
    have h1 := hP r (by simp)
    have h2 := hv r (by simp)
    simp only [List.filter_cons, List.map_cons, h1]
    split
    · simp [ih, h2]
    · exact ih

/-- A sublist that contains all elements with a property agrees on them. -/
theorem filter_of_sublist {α : Type} (P : α → Bool) {J V : List α} (hs : J.Sublist V) (hn : V.Nodup)
    (hc : ∀ x ∈ V, P x = true → x ∈ J) : J.filter P = V.filter P := by
  induction hs with
  | slnil => rfl
  | cons a hs ih =>
    rename_i l1 l2
    have hn' := (List.nodup_cons.mp hn)
    have ha : P a = false := by
      cases h : P a with
      | false => rfl
      | true => exact absurd (hs.subset (hc a (by simp) h)) hn'.1
    rw [List.filter_cons, ha]
    simp only [Bool.false_eq_true, if_false]
    exact ih hn'.2 fun x hx hp => hc x (by simp [hx]) hp
  | cons_cons a hs ih =>
    rename_i l1 l2
    have hn' := (List.nodup_cons.mp hn)
    have ih := ih hn'.2 fun x hx hp => by
      rcases List.mem_cons.mp (hc x (by simp [hx]) hp) with rfl | h
      · exact absurd hx hn'.1
      · exact h
    simp only [List.filter_cons, ih]

theorem meaning_unfold (w : World) (f : Feat) : meaning w f = meaningStep w f.info (meanings w f.bases) (meanings w f.wh) := by
  cases f; rfl

theorem meanings_eq_map (w : World) (fs : List Feat) : meanings w fs = fs.map (meaning w) := by
  induction fs with
  | nil => rfl
  | cons f fs ih => simp [meanings, ih]

theorem fillDflt_eq (d v : Val) : fillDflt d v = orElse d v := rfl

/-- The cells `fillRow` looks up. -/
theorem fillRow_mem (fs : List Feat) (r : Row) (f : Feat) (hf : f ∈ fs) (n : String) (hn : n ∈ f.names)
    (hu : ∀ g ∈ fs, n ∈ g.names → g = f) : fillRow fs r n = fillDflt f.dflt (r n) := by
  unfold fillRow
  rw [lookup_unique n f.dflt _ (by simp only [List.mem_reverse, List.mem_flatMap, List.mem_map]; exact ⟨f, hf, n, hn, rfl⟩) ?_]
  intro v' hv'
  simp only [List.mem_reverse, List.mem_flatMap, List.mem_map, Prod.mk.injEq] at hv'
  obtain ⟨g, hg, m, hm, rfl, rfl⟩ := hv'
  rw [hu g hg hm]

theorem fillRow_absent (fs : List Feat) (r : Row) (n : String) (hu : ∀ g ∈ fs, n ∉ g.names) : fillRow fs r n = r n := by
  unfold fillRow
  rw [lookup_absent]
  intro v hv
  simp only [List.mem_reverse, List.mem_flatMap, List.mem_map, Prod.mk.injEq] at hv
  obtain ⟨g, hg, m, hm, rfl, _⟩ := hv
  exact hu g hg hm

end FT
