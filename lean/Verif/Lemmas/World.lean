import Verif.Lemmas.HandlersAgg
/-! # The visible data -/
namespace FT
open Spec

theorem maskFold_cell (t : Int) (secs : List (String × List String)) (c : String) : ∀ r : Row,
    (secs.foldl (fun r s => maskRow t s r) r c = r c ∨ secs.foldl (fun r s => maskRow t s r) r c = .null) ∧
    ((∀ s ∈ secs, c ∉ s.2) → secs.foldl (fun r s => maskRow t s r) r c = r c) := by
  induction secs with
  | nil => intro r; exact ⟨.inl rfl, fun _ => rfl⟩
  | cons s secs ih =>
    intro r
    simp only [List.foldl_cons]
    obtain ⟨h1, h2⟩ := ih (maskRow t s r)
    have hm : maskRow t s r c = r c ∨ maskRow t s r c = .null := by
      unfold maskRow; split
      · by_cases hc : c ∈ s.2
        · right; simp [hc]
        · left; simp [hc]
      · exact .inl rfl
    constructor
    · rcases h1 with h1 | h1
      · rw [h1]; exact hm
      · exact .inr h1
    · intro h
      rw [h2 fun s hs => h s (by simp [hs])]
      unfold maskRow; split
      · simp [h s (by simp)]
      · rfl

theorem maskAll_cell (tl : Option Int) (secs : List (String × List String)) (c : String) (r : Row) :
    (maskAll tl secs r c = r c ∨ maskAll tl secs r c = .null) ∧ ((∀ s ∈ secs, c ∉ s.2) → maskAll tl secs r c = r c) := by
  cases tl with
  | none => exact ⟨.inl rfl, fun _ => rfl⟩
  | some t => exact maskFold_cell t secs c r

/-- A row is visible. -/
def visB (env : Env) (ent : Ent) (r : Row) : Bool :=
  beforeB ent (some env.timeLast) env.includeCutoff r && windowB ent (some env.timeLast) (Window.start? env.window) env.includeCutoff r

/-- A row as it is shown. -/
def shown (env : Env) (ent : Ent) : Row → Row := maskAll (some env.timeLast) ent.secondary

theorem visRows_eq (env : Env) (e : String) (ent : Ent) (he : env.ent e = some ent)
    (hw : env.window.all Window.hasNoObservations = true) :
    visRows env e = (ent.df.rows.filter (visB env ent)).map (shown env ent) := by
  unfold visRows
  simp only [he]
  rw [queryByValues_eq ent none none none _ _ _ hw (fun h => absurd rfl h) (fun cs h => by cases h)]
  simp only [wantedB, Bool.true_and]
  rfl

section
variable {env : Env} {e : String} (hok : EntityOk env e) (hw : env.window.all Window.hasNoObservations = true)
include hok

theorem Spec.EntityOk.get : ∃ ent, env.ent e = some ent ∧ indexOf env e = ent.index := by
  obtain ⟨ent, he⟩ := Option.isSome_iff_exists.mp hok.there
  exact ⟨ent, he, by simp [indexOf, he]⟩

include hw

theorem visible_ids : ((worldOf env).ids e).Nodup ∧ .null ∉ (worldOf env).ids e := by
  obtain ⟨ent, he, hi⟩ := hok.get
  have hids : (worldOf env).ids e = (ent.df.rows.filter (visB env ent)).map fun r => r ent.index := by
    simp only [worldOf, visRows_eq env e ent he hw, hi, List.map_map]
    apply List.map_congr_left
    intro r _
    show shown env ent r ent.index = r ent.index
    exact (maskAll_cell _ _ _ r).2 fun s hs => hok.notSecondary ent he s hs
  rw [hids]
  constructor
  · exact (List.filter_sublist.map _).nodup (hok.distinct ent he)
  · intro hm
    obtain ⟨r, hr, hn⟩ := List.mem_map.mp hm
    exact hok.present ent he r (List.mem_filter.mp hr).1 hn

theorem cell_row {r : Row} (hr : r ∈ visRows env e) (c : String) : (worldOf env).cell e (r (indexOf env e)) c = r c := by
  have hn : ((visRows env e).map fun r => r (indexOf env e)).Nodup := (visible_ids hok hw).1
  have key : ∀ l : List Row, (l.map fun r => r (indexOf env e)).Nodup → r ∈ l →
      l.find? (fun r' => r' (indexOf env e) = r (indexOf env e)) = some r := by
    intro l
    induction l with
    | nil => intro _ h; cases h
    | cons a l ih =>
      intro hn hm
      simp only [List.map_cons, List.nodup_cons] at hn
      rw [List.find?_cons]
      by_cases ha : a (indexOf env e) = r (indexOf env e)
      · simp only [ha, decide_true]
        rcases List.mem_cons.mp hm with rfl | hm
        · rfl
        · exact absurd (List.mem_map.mpr ⟨r, hm, ha.symm⟩) hn.1
      · simp only [ha, decide_false]
        rcases List.mem_cons.mp hm with rfl | hm
        · exact absurd rfl ha
        · exact ih hn.2 hm
  simp only [worldOf, key _ hn hr, Option.map_some, Option.getD_some]

omit hok hw in
theorem cell_absent {x : Val} (hx : x ∉ (worldOf env).ids e) (c : String) : (worldOf env).cell e x c = .null := by
  have : (visRows env e).find? (fun r => r (indexOf env e) = x) = none := by
    rw [List.find?_eq_none]
    intro r hr
    simp only [decide_eq_true_eq]
    intro h
    exact hx (List.mem_map.mpr ⟨r, hr, h⟩)
  simp only [worldOf, this, Option.map_none, Option.getD_none]

omit hok in
/-- What the query of a node returns. -/
theorem query_node (need : Bool) (fvals : List Val) (fv : String) (cols : List String) (ent : Ent) (he : env.ent e = some ent)
    (hfv : fv ∈ ent.df.cols) (hc : ∀ c ∈ cols, c ∈ ent.df.cols) :
    ∃ R, queryByValues ent (if need then none else some fvals) (if need then none else some fv)
        (some cols) (some env.timeLast) env.window env.includeCutoff = .ok { cols := cols, rows := R } ∧
      R.Sublist (visRows env e) ∧ (need = true → R = visRows env e) ∧
      (need = false → (∀ r ∈ visRows env e, r fv ∈ fvals → r fv ≠ .null → r ∈ R) ∧
        ∀ r ∈ R, r fv ∈ fvals ∨ r fv = .null) := by
  cases need with
  | true =>
    refine ⟨visRows env e, ?_, List.Sublist.refl _, fun _ => rfl, fun h => by cases h⟩
    simp only [if_true]
    rw [queryByValues_eq ent none none _ _ _ _ hw (fun h => absurd rfl h) (fun cs h => by cases h; exact hc),
      visRows_eq env e ent he hw]
    simp only [wantedB, Bool.true_and]
    rfl
  | false =>
    refine ⟨(ent.df.rows.filter fun r => wantedB (some fvals) fv r && visB env ent r).map (shown env ent), ?_, ?_, (fun h => by cases h), fun _ => ?_⟩
    · simp only [Bool.false_eq_true, if_false]
      rw [queryByValues_eq ent (some fvals) (some fv) _ _ _ _ hw (fun _ => hfv) (fun cs h => by cases h; exact hc)]
      rfl
    · rw [visRows_eq env e ent he hw]
      apply List.Sublist.map
      have : (ent.df.rows.filter fun r => wantedB (some fvals) fv r && visB env ent r) =
          (ent.df.rows.filter (visB env ent)).filter (wantedB (some fvals) fv) := by rw [List.filter_filter]
      rw [this]
      exact List.filter_sublist
    · rw [visRows_eq env e ent he hw]
      constructor
      · intro r hr hv hnn
        obtain ⟨r0, hr0, rfl⟩ := List.mem_map.mp hr
        obtain ⟨h1, h2⟩ := List.mem_filter.mp hr0
        apply List.mem_map.mpr
        refine ⟨r0, List.mem_filter.mpr ⟨h1, ?_⟩, rfl⟩
        have hsame : shown env ent r0 fv = r0 fv := by
          rcases (maskAll_cell (some env.timeLast) ent.secondary fv r0).1 with h | h
          · exact h
          · exact absurd h hnn
        rw [Bool.and_eq_true]
        refine ⟨?_, h2⟩
        rw [wantedB_iff]
        intro l hl
        cases hl
        rw [← hsame]; exact ⟨hv, hnn⟩
      · intro r hr
        obtain ⟨r0, hr0, rfl⟩ := List.mem_map.mp hr
        obtain ⟨h1, h2⟩ := List.mem_filter.mp hr0
        rw [Bool.and_eq_true, wantedB_iff] at h2
        rcases (maskAll_cell (some env.timeLast) ent.secondary fv r0).1 with h | h
        · exact .inl (by rw [show shown env ent r0 fv = r0 fv from h]; exact (h2.1 fvals rfl).1)
        · exact .inr h
end

/-- Following relationships from nowhere leads nowhere. -/
theorem up_null {env : Env} (hw : env.window.all Window.hasNoObservations = true) (rs : List Relationship)
    (hr : ∀ r ∈ rs, EntityOk env r.childE) : (worldOf env).up rs .null = .null := by
  induction rs with
  | nil => rfl
  | cons r rs ih =>
    rw [World.up, cell_absent (visible_ids (hr r (by simp)) hw).2]
    exact ih fun r' hr' => hr r' (by simp [hr'])

theorem up_absent {env : Env} (hw : env.window.all Window.hasNoObservations = true) (r : Relationship) (rs : List Relationship)
    (hr : ∀ r' ∈ rs, EntityOk env r'.childE) (x : Val) (hx : x ∉ (worldOf env).ids r.childE) : (worldOf env).up (r :: rs) x = .null := by
  rw [World.up, cell_absent hx]
  exact up_null hw rs hr

end FT
