import Verif.Lemmas.EntitySet
import Verif.Lemmas.Run
/-! # Lemmas about `normalize_entity` -/
namespace FT
open Spec

theorem get?_setEntity (l : List Entity) (x : Entity) (e : String) :
    (setEntity l x).find? (fun y => y.id == e) = if x.id = e then some x else l.find? fun y => y.id == e := by
  unfold setEntity
  split
  · rename_i h
    induction l with
    | nil => simp at h
    | cons a l ih =>
      simp only [List.map_cons, List.find?_cons]
      by_cases ha : a.id = x.id
      · simp only [ha, beq_self_eq_true, if_true]
        by_cases hx : x.id = e
        · simp [hx]
        · have : (x.id == e) = false := by simpa using hx
          simp only [this, if_neg hx]
          by_cases hl : (l.any fun y => y.id == x.id) = true
          · have := ih hl
            rw [if_neg hx] at this
            exact this
          · congr 1
            conv => rhs; rw [← List.map_id l]
            apply List.map_congr_left
            intro y hy
            simp only [List.any_eq_true, not_exists, not_and] at hl
            simp [hl y hy]
      · have ha' : (a.id == x.id) = false := by simpa using ha
        have hl : (l.any fun y => y.id == x.id) = true := by simpa [ha'] using h
        simp only [ha', Bool.false_eq_true, if_false]
        rw [ih hl]
        by_cases hae : a.id = e
        · have : x.id ≠ e := fun h => ha (hae.trans h.symm)
          simp [hae, this]
        · have : (a.id == e) = false := by simpa using hae
          simp [this]
  · rename_i h
    rw [List.find?_append]
    by_cases hx : x.id = e
    · have : l.find? (fun y => y.id == e) = none := by
        rw [List.find?_eq_none]
        intro y hy hye
        apply h
        rw [List.any_eq_true]
        exact ⟨y, hy, by rw [hx]; exact hye⟩
      rw [this]
      simp [hx]
    · have : (x.id == e) = false := by simpa using hx
      simp [this, if_neg hx]

theorem get?_modify {es : ESet} {e : String} {f : Entity → Entity} (hf : ∀ x, x.id = e → (f x).id = e) (e' : String) :
    (es.modify e f).get? e' = if e' = e then (es.get? e).map f else es.get? e' := by
  unfold ESet.get? ESet.modify
  simp only
  generalize es.entities = l
  induction l with
  | nil => simp
  | cons a l ih =>
    simp only [List.map_cons, List.find?_cons]
    by_cases ha : a.id = e
    · have h1 := hf a ha
      simp only [ha, beq_self_eq_true, if_true, h1]
      by_cases hee : e' = e
      · subst hee; simp
      · have h2' : (e == e') = false := by simpa using Ne.symm hee
        simp only [h2', if_neg hee] at ih ⊢
        exact ih
    · have ha' : (a.id == e) = false := by simpa using ha
      simp only [ha', Bool.false_eq_true, if_false]
      by_cases hee : e' = e
      · subst hee
        simp only [ha', if_true] at ih ⊢
        exact ih
      · simp only [if_neg hee] at ih ⊢
        rw [ih]

/-- Data and columns of an entity. -/
def SameData (x y : Entity) : Prop :=
  y.id = x.id ∧ y.index = x.index ∧ y.df.rows = x.df.rows ∧ y.df.cols = x.df.cols ∧ y.timeIndex = x.timeIndex ∧ y.secondary = x.secondary

/-- Every entity of `es'` has the data of the one at the same place in `es`. -/
def KeepsEntities (es es' : ESet) (touched : String → Prop) : Prop :=
  ∀ e, (∀ x, es.get? e = some x → ∃ y, es'.get? e = some y ∧ SameData x y) ∧ (¬ touched e → es'.get? e = es.get? e)

theorem KeepsEntities.refl (es : ESet) (t : String → Prop) : KeepsEntities es es t :=
  fun _ => ⟨fun x h => ⟨x, h, rfl, rfl, rfl, rfl, rfl, rfl⟩, fun _ => rfl⟩

theorem KeepsEntities.trans {es es1 es2 : ESet} {t : String → Prop} (h1 : KeepsEntities es es1 t) (h2 : KeepsEntities es1 es2 t) :
    KeepsEntities es es2 t := by
  intro e
  refine ⟨fun x hx => ?_, fun hn => ((h2 e).2 hn).trans ((h1 e).2 hn)⟩
  obtain ⟨y, hy, a1, a2, a3, a4, a5, a6⟩ := (h1 e).1 x hx
  obtain ⟨z, hz, b1, b2, b3, b4, b5, b6⟩ := (h2 e).1 y hy
  exact ⟨z, hz, b1.trans a1, b2.trans a2, b3.trans a3, b4.trans a4, b5.trans a5, b6.trans a6⟩

theorem keepsEntities_modify {es : ESet} {e : String} {f : Entity → Entity} {t : String → Prop} (ht : t e)
    (hf : ∀ x, SameData x (f x)) : KeepsEntities es (es.modify e f) t := by
  have key := fun e' => get?_modify (es := es) (e := e) (f := f) (fun x hx => (hf x).1.trans hx) e'
  intro e'
  rw [key]
  refine ⟨fun x hx => ?_, fun hn => ?_⟩
  · split
    · rename_i h; subst h; rw [hx]; exact ⟨f x, rfl, hf x⟩
    · exact ⟨x, hx, rfl, rfl, rfl, rfl, rfl, rfl⟩
  · rw [if_neg]; rintro rfl; exact hn ht

theorem relate_keeps (lib : Lib) (es : ESet) (r : Relationship) :
    KeepsEntities es (addRelationship lib es r).1 fun e => e = r.parentE ∨ e = r.childE := by
  have h3 : KeepsEntities es (fixEmptyDtype lib (ensureType (ensureType es r.childE r.childV "id") r.parentE r.parentV "index") r.parentE r.parentV r.childE r.childV)
      fun e => e = r.parentE ∨ e = r.childE := by
    refine KeepsEntities.trans (es1 := ensureType es r.childE r.childV "id") (keepsEntities_modify (.inr rfl) fun x => ⟨rfl, rfl, rfl, rfl, rfl, rfl⟩) ?_
    refine KeepsEntities.trans (es1 := ensureType (ensureType es r.childE r.childV "id") r.parentE r.parentV "index")
      (keepsEntities_modify (.inl rfl) fun x => ⟨rfl, rfl, rfl, rfl, rfl, rfl⟩) ?_
    unfold fixEmptyDtype
    split
    · exact .refl _ _
    · refine keepsEntities_modify (.inr rfl) fun x => ?_
      split <;> exact ⟨rfl, rfl, rfl, rfl, rfl, rfl⟩
  unfold addRelationship addNewRelationship
  split
  · split
    · exact .refl _ _
    · split
      · exact .refl _ _
      · split
        · exact .refl _ _
        · split
          · exact .refl _ _
          · simp only
            split
            · exact h3
            · exact h3
  · exact .refl _ _

theorem relate_mem {lib : Lib} {es : ESet} {r : Relationship} (h : (addRelationship lib es r).2 = none) : r ∈ (addRelationship lib es r).1.rels := by
  unfold addRelationship addNewRelationship at h ⊢
  split
  · rename_i p c hp hc
    rw [hp, hc] at h
    simp only at h ⊢
    split
    · rename_i hv; rw [if_pos hv] at h; cases h
    · rename_i hv
      rw [if_neg hv] at h
      split
      · rename_i hi; rw [if_pos hi] at h; cases h
      · rename_i hi
        rw [if_neg hi] at h
        split
        · rename_i hm; simpa using hm
        · rename_i hm
          rw [if_neg hm] at h
          split
          · rename_i hci; rw [if_pos hci] at h; cases h
          · rename_i hci
            rw [if_neg hci, if_neg hv] at h
            split
            · rename_i hd; rw [if_pos hd] at h; cases h
            · simp
  · rename_i hno
    split at h
    · rename_i p c hp hc; exact absurd hc (by intro _; exact hno p c hp hc)
    · cases h

/-! ### The first rows of every key -/

theorem firstRows_find (k : String) (rows : List Row) (v : Val) :
    (firstRows k rows).find? (fun s => decide (s k = v)) = rows.find? fun s => decide (s k = v) := by
  induction rows with
  | nil => rfl
  | cons r rs ih =>
    simp only [firstRows, List.find?_cons]
    by_cases h : r k = v
    · simp [h]
    · simp only [h, decide_false]
      rw [← ih, List.find?_filter]
      congr 1
      funext s
      by_cases hs : s k = v
      · have : ¬ s k = r k := fun h' => h (h'.symm.trans hs)
        simp [hs, Ne.symm h]
      · simp [hs]

theorem firstRows_sub (k : String) (rows : List Row) : ∀ r ∈ firstRows k rows, r ∈ rows := by
  induction rows with
  | nil => simp [firstRows]
  | cons r rs ih =>
    intro s hs
    rcases List.mem_cons.mp hs with rfl | hs
    · exact List.mem_cons_self ..
    · exact List.mem_cons_of_mem _ (ih s (List.mem_filter.mp hs).1)

theorem firstRows_nodup (k : String) (rows : List Row) : ((firstRows k rows).map fun r => r k).Nodup := by
  induction rows with
  | nil => simp [firstRows]
  | cons r rs ih =>
    simp only [firstRows, List.map_cons, List.nodup_cons]
    refine ⟨?_, ?_⟩
    · intro h
      obtain ⟨s, hs, he⟩ := List.mem_map.mp h
      have := (List.mem_filter.mp hs).2
      simp [he] at this
    · exact List.Nodup.sublist (List.Sublist.map _ List.filter_sublist) ih

theorem firstRows_first (k : String) (rows : List Row) : ∀ r ∈ firstRows k rows, rows.find? (fun s => decide (s k = r k)) = some r := by
  intro r hr
  rw [← firstRows_find]
  have hn := firstRows_nodup k rows
  generalize firstRows k rows = l at hr hn
  induction l with
  | nil => cases hr
  | cons a l ih =>
    simp only [List.map_cons, List.nodup_cons] at hn
    rcases List.mem_cons.mp hr with rfl | hr
    · simp
    · have : a k ≠ r k := fun h => hn.1 (h ▸ List.mem_map_of_mem hr)
      rw [List.find?_cons_of_neg (by simpa using this)]
      exact ih hr hn.2

theorem firstRows_values (k : String) (rows : List Row) (v : Val) :
    v ∈ (firstRows k rows).map (fun r => r k) ↔ v ∈ rows.map fun r => r k := by
  constructor
  · intro h
    obtain ⟨r, hr, he⟩ := List.mem_map.mp h
    exact List.mem_map.mpr ⟨r, firstRows_sub k rows r hr, he⟩
  · intro h
    obtain ⟨r, hr, he⟩ := List.mem_map.mp h
    have hf : (rows.find? fun s => decide (s k = v)).isSome := by
      rw [List.find?_isSome]; exact ⟨r, hr, by simpa using he⟩
    rw [← firstRows_find] at hf
    obtain ⟨s, hs, he⟩ := List.find?_isSome.mp hf
    exact List.mem_map.mpr ⟨s, hs, by simpa using he⟩

/-! ### The frame of the new entity -/

theorem normTime_cases {x : Entity} {a : NormArgs} {t : NormTime} (h : normTime x a = .ok t) (he : normError x a = none) :
    (∃ c, t.time = some c ∧ t.source = some c ∧ t.copy = a.copy ∧ c ∈ a.additional ++ a.copy) ∨
    (∃ s d, t.time = some d ∧ t.source = some s ∧ t.copy = a.copy ++ [s]) ∨
    (t.time = none ∧ t.source = none ∧ t.copy = a.copy) := by
  unfold normTime at h
  split at h
  · rename_i c hc
    cases h
    refine .inl ⟨c, rfl, rfl, rfl, ?_⟩
    unfold normError at he
    split at he; · cases he
    split at he; · cases he
    split at he; · cases he
    split at he; · cases he
    split at he; · cases he
    rw [hc] at he
    simp only at he
    split at he
    · cases he
    · rename_i hn
      simp only [Bool.or_eq_true, Bool.not_eq_true', not_or, Bool.not_eq_false] at hn
      simpa using hn.2
  · split at h
    · split at h
      · cases h
      · rename_i t' ht
        cases h
        refine .inr (.inl ⟨t', _, rfl, rfl, ?_⟩)
        have : ¬ a.additional.contains t' = true := by
          intro hc
          unfold normError at he
          split at he; · cases he
          split at he; · cases he
          split at he; · cases he
          split at he; · cases he
          rw [if_pos] at he
          · cases he
          · rw [List.any_eq_true]
            exact ⟨t', by simpa using hc, by simp [ht]⟩
        simp only [this]
        rfl
    · cases h
      exact .inr (.inr ⟨rfl, rfl, rfl⟩)

theorem normError_index {x : Entity} {a : NormArgs} (he : normError x a = none) : a.index ∉ a.additional ++ a.copy := by
  unfold normError at he
  split at he; · cases he
  split at he; · cases he
  split at he; · cases he
  split at he
  · cases he
  · rename_i h; simpa using h

theorem normFrame_eq {x : Entity} {a : NormArgs} {t : NormTime} {f : DataFrame} (h : normFrame x a t = .ok f) :
    (a.makeSecondary = [] ∧ f = normFrame0 x a t) ∨
    ∃ s cols, a.makeSecondary = [(s, cols)] ∧
      f.cols = (normFrame0 x a t).cols ++ (a.newSecondary.getD s :: cols.map (renameCol s (a.newSecondary.getD s))) ∧
      f.rows = (normFrame0 x a t).rows.map (joinSecondary a.index x.df.rows s (a.newSecondary.getD s) cols) ∧
      ∀ c ∈ a.newSecondary.getD s :: cols.map (renameCol s (a.newSecondary.getD s)), c ∉ (normFrame0 x a t).cols := by
  unfold normFrame at h
  simp only at h
  split at h
  · split at h
    · rename_i hs; cases h; exact .inl ⟨hs, rfl⟩
    · rename_i s cols hs
      split at h
      · split at h
        · cases h
        · rename_i hn
          cases h
          refine .inr ⟨s, cols, hs, rfl, rfl, fun c hc hm => hn ?_⟩
          rw [List.any_eq_true]
          exact ⟨c, hc, by simpa using hm⟩
      · cases h
    · cases h
  · cases h

/-- Key and carried columns keep their names and cells in the frame of the new entity. -/
theorem normFrame_keeps {x : Entity} {a : NormArgs} {t : NormTime} {f : DataFrame} (ht : normTime x a = .ok t) (he : normError x a = none)
    (h : normFrame x a t = .ok f) (hn : f.cols.Nodup) :
    (∀ c ∈ a.index :: a.additional ++ a.copy, c ∈ f.cols) ∧
    f.rows.length = (firstRows a.index x.df.rows).length ∧
    ∀ i (h1 : i < f.rows.length) (h2 : i < (firstRows a.index x.df.rows).length),
      ∀ c ∈ a.index :: a.additional ++ a.copy, f.rows[i] c = (firstRows a.index x.df.rows)[i] c := by
  have hn0 : (normFrame0 x a t).cols.Nodup := by
    rcases normFrame_eq h with ⟨_, rfl⟩ | ⟨s, cols, _, hc, _⟩
    · exact hn
    · rw [hc] at hn; exact (List.nodup_append.mp hn).1
  -- before the join
  have h0 : (∀ c ∈ a.index :: a.additional ++ a.copy, c ∈ (normFrame0 x a t).cols) ∧
      ∃ g : Row → Row, (normFrame0 x a t).rows = (firstRows a.index x.df.rows).map g ∧
        ∀ r, ∀ c ∈ a.index :: a.additional ++ a.copy, g r c = r c := by
    rcases normTime_cases ht he with ⟨c, h1, h2, h3, h4⟩ | ⟨s, d, h1, h2, h3⟩ | ⟨h1, h2, h3⟩
    · have hr : ∀ z, renameCol c c z = z := by intro z; unfold renameCol; split <;> simp [*]
      have hr2 : ∀ r, renameRow c c r = r := by intro r; funext z; unfold renameRow; split <;> simp [*]
      unfold normFrame0
      simp only [h1, h2, h3]
      refine ⟨fun z hz => List.mem_map.mpr ⟨z, hz, hr z⟩, _, rfl, fun r z _ => by rw [hr2]⟩
    · unfold normFrame0 at hn0 ⊢
      simp only [h1, h2, h3] at hn0 ⊢
      rw [← List.append_assoc, List.map_append, List.nodup_append] at hn0
      have hd : ∀ c ∈ a.index :: a.additional ++ a.copy, c ≠ s ∧ c ≠ d := by
        intro c hc
        have := hn0.2.2 (renameCol s d c) (List.mem_map_of_mem hc) (renameCol s d s) (by simp)
        have hs : renameCol s d s = d := by simp [renameCol]
        rw [hs] at this
        have hcs : c ≠ s := by rintro rfl; exact this hs
        refine ⟨hcs, ?_⟩
        simpa [renameCol, hcs] using this
      refine ⟨fun z hz => List.mem_map.mpr ⟨z, ?_, by simp [renameCol, (hd z hz).1]⟩, _, rfl, fun r z hz => by simp [renameRow, (hd z hz).2]⟩
      rw [← List.append_assoc]
      exact List.mem_append_left _ hz
    · unfold normFrame0
      simp only [h1, h2, h3]
      exact ⟨fun z hz => hz, id, by simp, fun r c _ => rfl⟩
  obtain ⟨hc0, g, hg, hgc⟩ := h0
  rcases normFrame_eq h with ⟨_, rfl⟩ | ⟨s, cols, _, hc, hr, hd⟩
  · refine ⟨hc0, by rw [hg]; simp, ?_⟩
    intro i h1 h2 c hc
    rw [List.getElem_of_eq hg h1, List.getElem_map]
    exact hgc _ c hc
  · refine ⟨fun c hc' => by rw [hc]; exact List.mem_append_left _ (hc0 c hc'), by rw [hr, hg]; simp, ?_⟩
    intro i h1 h2 c hcm
    have hcf := hc0 c hcm
    have hcd : c ≠ a.newSecondary.getD s := fun h => hd _ (List.mem_cons_self ..) (h ▸ hcf)
    have hcc : c ∉ cols := by
      intro hcc
      by_cases hcs : c = s
      · subst hcs
        rw [hc] at hn
        have := (List.nodup_append.mp hn).2.1
        rw [List.nodup_cons] at this
        exact this.1 (List.mem_map.mpr ⟨c, hcc, by simp [renameCol]⟩)
      · exact hd c (List.mem_cons_of_mem _ (List.mem_map.mpr ⟨c, hcc, by simp [renameCol, hcs]⟩)) hcf
    rw [hg, List.map_map] at hr
    rw [List.getElem_of_eq hr h1, List.getElem_map]
    have hj : ∀ r, joinSecondary a.index x.df.rows s (a.newSecondary.getD s) cols r c = r c := by
      intro r
      unfold joinSecondary
      cases x.df.rows.reverse.find? fun q => decide (q a.index = r a.index) with
      | some q => simp [hcd, hcc]
      | none => rfl
    rw [Function.comp, hj]
    exact hgc _ c hcm

theorem transferTypes_ids {x : Entity} {vs : List String} {l : List (String × TypeArg)} (h : transferTypes x vs = .ok l) : l.map Prod.fst = vs := by
  induction vs generalizing l with
  | nil => cases h; rfl
  | cons v vs ih =>
    unfold transferTypes at h
    split at h
    · rename_i y l' _ hl
      cases h
      simp [ih hl]
    · cases h
    · cases h

theorem normEntityArgs_ok {x : Entity} {a : NormArgs} {args : EntityArgs} (h : normEntityArgs x a = .ok args) :
    ∃ t, normTime x a = .ok t ∧ normFrame x a t = .ok args.df ∧ args.id = a.new ∧ args.index = some a.index ∧ args.makeIndex = false ∧
      args.timeIndex = t.time ∧ args.sorted = t.sorted ∧ (∀ c ∈ a.index :: a.additional ++ a.copy, c ∈ args.types.map Prod.fst) := by
  unfold normEntityArgs at h
  split at h
  · cases h
  · cases h
  · cases h
  · rename_i types t _ hty ht
    split at h
    · cases h
    · split at h
      · cases h
      · rename_i f hf
        cases h
        refine ⟨t, ht, hf, rfl, rfl, rfl, rfl, rfl, fun c hc => ?_⟩
        simp only [List.cons_append, List.map_cons, List.map_append, transferTypes_ids hty]
        simp only [List.cons_append, List.mem_cons, List.mem_append] at hc ⊢
        rcases hc with hc | hc
        · exact .inl hc
        · exact .inr (.inl hc)

theorem createVars_ok {lib : Lib} {link : List String} {df df' : DataFrame} {types : List (String × TypeArg)} {index : String} {ti : Option String}
    {sec : List (String × List String)} {vars : List Var} (h : createVars lib link df types index ti sec = .ok (vars, df')) :
    (∃ all, lib.convert df all = .ok df') ∧ (∀ c ∈ types.map Prod.fst, c ∈ vars.map Var.id) ∧ index ∈ vars.map Var.id := by
  unfold createVars at h
  simp only at h
  split at h
  · split at h
    · cases h
    · rename_i df2 hconv
      cases h
      refine ⟨⟨_, hconv⟩, ?_⟩
      have key : ∀ c, c ∈ (givenTypes lib types index).map Prod.fst →
          c ∈ ((((lib.infer df link (givenTypes lib types index) ti sec ++ givenTypes lib types index).filter fun p => p.1 == index).map newVar ++
            ((lib.infer df link (givenTypes lib types index) ti sec ++ givenTypes lib types index).filter fun p => p.1 != index).map newVar)).map Var.id := by
        intro c hc
        obtain ⟨p, hp, rfl⟩ := List.mem_map.mp hc
        rw [List.map_append]
        by_cases hi : p.1 = index
        · exact List.mem_append_left _ (List.mem_map.mpr ⟨newVar p, List.mem_map_of_mem (List.mem_filter.mpr ⟨List.mem_append_right _ hp, by simpa using hi⟩), rfl⟩)
        · exact List.mem_append_right _ (List.mem_map.mpr ⟨newVar p, List.mem_map_of_mem (List.mem_filter.mpr ⟨List.mem_append_right _ hp, by simpa using hi⟩), rfl⟩)
      constructor
      · intro c hc
        apply key
        unfold givenTypes
        obtain ⟨p, hp, rfl⟩ := List.mem_map.mp hc
        simp only
        have hm : p.1 ∈ ((types.map fun x : String × TypeArg => match x with
            | (v, t) => (v, match t with
              | .cls s => s
              | .str s => if lib.known s then s else "unknown")).map Prod.fst) :=
          List.mem_map.mpr ⟨_, List.mem_map_of_mem hp, rfl⟩
        split
        · exact hm
        · rw [List.map_append]; exact List.mem_append_left _ hm
      · apply key
        unfold givenTypes
        simp only
        split
        · rename_i h
          obtain ⟨p, hp, he⟩ := List.any_eq_true.mp h
          exact List.mem_map.mpr ⟨p, hp, by simpa using he⟩
        · simp
  · cases h

/-- The entity created by `normalize_entity`. -/
theorem created_normalised {lib : Lib} (hk : KeepsData lib) {es : ESet} {x n : Entity} {a : NormArgs} {args : EntityArgs} {tt : Option TimeType}
    (he : normError x a = none) (ha : normEntityArgs x a = .ok args) (hx : newEntity lib es args = (tt, .ok n)) :
    n.id = a.new ∧ IsNormalised x n a.index (a.additional ++ a.copy) := by
  obtain ⟨t, ht, hf, hid, hidx, hmk, hti, hso, hty⟩ := normEntityArgs_ok ha
  obtain ⟨created, index, df, link, vars, df', hci, hl, hcv, e1, e2, e3, e4, e5, e6, e7, e8, e9, e10⟩ := newEntity_ok hx
  have hnd : args.df.cols.Nodup := by
    unfold validateParams at e10
    split at e10
    · cases e10
    · rename_i h; exact (dedup_eq_self _).mp (Classical.not_not.mp h)
  obtain ⟨k1, k2, k3⟩ := normFrame_keeps ht he hf hnd
  have hci' : index = a.index ∧ df = args.df := by
    unfold createIndex at hci
    rw [hidx, hmk] at hci
    have : args.df.cols.contains a.index = true := by simpa using k1 a.index (by simp)
    simp only [Bool.false_and, Bool.false_eq_true, if_false, this, if_true] at hci
    cases hci
    exact ⟨rfl, rfl⟩
  obtain ⟨rfl, rfl⟩ := hci'
  obtain ⟨⟨all, hconv⟩, c1, c2⟩ := createVars_ok hcv
  have hrows : df'.rows = args.df.rows := by
    have := hk _ _ _ hconv
    rw [this]
  refine ⟨e1.trans hid, e2, ?_, ?_, ?_, ?_⟩
  · intro c hc
    rw [e6]
    exact c1 c (hty c (by simpa using hc))
  · exact (e7.map fun r => r a.index).nodup_iff.mpr e9
  · intro v
    rw [(e7.map fun r => r a.index).mem_iff, hrows, ← firstRows_values a.index x.df.rows]
    have : args.df.rows.map (fun r => r a.index) = (firstRows a.index x.df.rows).map fun r => r a.index := by
      apply List.ext_getElem
      · simpa using k2
      · intro i h1 h2
        simp only [List.getElem_map]
        exact k3 i _ _ _ (by simp)
    rw [this]
  · intro r hr
    rw [e7.mem_iff, hrows] at hr
    obtain ⟨i, hi, rfl⟩ := List.getElem_of_mem hr
    have hi2 : i < (firstRows a.index x.df.rows).length := by rw [← k2]; exact hi
    refine ⟨(firstRows a.index x.df.rows)[i], ?_, fun c hc => k3 i hi hi2 c (by simpa using .inr (by simpa using hc))⟩
    rw [k3 i hi hi2 a.index (by simp)]
    exact firstRows_first _ _ _ (List.getElem_mem _)

theorem delete_get? {es es' : ESet} {e : String} {vs : List String} {x : Entity} (hx : es.get? e = some x)
    (h : deleteVariables es e vs = (es', none)) :
    ∃ y, es'.get? e = some y ∧ y.id = x.id ∧ y.index = x.index ∧ y.df.rows = x.df.rows ∧ y.df.cols = x.df.cols.filter (fun c => !vs.contains c) ∧
      y.timeIndex = x.timeIndex ∧ y.secondary = x.secondary ∧ ∀ e', e' ≠ e → es'.get? e' = es.get? e' := by
  unfold deleteVariables at h
  rw [hx] at h
  simp only [Prod.mk.injEq] at h
  obtain ⟨rfl, h2⟩ := h
  have hid := (get?_mem hx).2
  have hg := fun e' => get?_modify (es := es) (e := e) (f := fun _ => (x.deleteVars vs).1) (fun _ _ => (deleteVars_keeps x vs).1.trans hid) e'
  refine ⟨(x.deleteVars vs).1, by rw [hg, if_pos rfl, hx]; rfl, (deleteVars_keeps x vs).1, (deleteVars_keeps x vs).2.1, (deleteVars_keeps x vs).2.2, ?_, ?_, ?_, ?_⟩
  · unfold Entity.deleteVars at h2 ⊢
    split
    · rename_i hv
      have : vs = [] := by simpa using hv
      subst this
      symm
      simp only
      rw [List.filter_eq_self]
      simp
    · rename_i hv
      rw [if_neg hv] at h2
      split
      · rfl
      · rename_i hc; rw [if_neg hc] at h2; cases h2
  · unfold Entity.deleteVars; split
    · rfl
    · split <;> rfl
  · unfold Entity.deleteVars; split
    · rfl
    · split <;> rfl
  · intro e' he; rw [hg, if_neg he]

theorem convert_get? {es es' : ESet} {e v t : String} {x : Entity} (hx : es.get? e = some x)
    (h : convertVariableType es e v t = (es', none)) :
    ∃ y, es'.get? e = some y ∧ SameData x y ∧ ∀ e', e' ≠ e → es'.get? e' = es.get? e' := by
  unfold convertVariableType at h
  rw [hx] at h
  simp only at h
  split at h
  · rename_i y hy
    cases h
    obtain ⟨h1, h2, h3, _, h5, h6, _⟩ := convertType_keeps hy
    have hid := (get?_mem hx).2
    have hg := fun e' => get?_modify (es := es) (e := e) (f := fun _ => y) (fun _ _ => h1.trans hid) e'
    exact ⟨y, by rw [hg, if_pos rfl, hx]; rfl, ⟨h1, h2, by rw [h3], by rw [h3], h5, h6⟩, fun e' he => by rw [hg, if_neg he]⟩
  · cases h

/-- What `normalize_entity` does when it succeeds. -/
theorem normalize_ok {lib : Lib} (hk : KeepsData lib) {es es' : ESet} {a : NormArgs} {x : Entity} (hx : es.get? a.base = some x)
    (h : normalizeEntity lib es a = (es', none)) :
    ∃ n y, es'.get? a.new = some n ∧ es'.get? a.base = some y ∧ IsNormalised x n a.index (a.additional ++ a.copy) ∧
      y.index = x.index ∧ y.df.rows = x.df.rows ∧ y.df.cols = x.df.cols.filter (fun c => !a.additional.contains c) ∧
      y.timeIndex = x.timeIndex ∧ y.secondary = x.secondary ∧
      ⟨a.new, a.index, a.base, a.index⟩ ∈ es'.rels ∧ ∀ e, e ≠ a.new → e ≠ a.base → es'.get? e = es.get? e := by
  unfold normalizeEntity at h
  rw [hx] at h
  simp only at h
  split at h
  · cases h
  · rename_i hne
    split at h
    · cases h
    · rename_i herr
      split at h
      · cases h
      · rename_i args hargs
        split at h
        · cases h
        · rename_i es1 hes1
          obtain ⟨tt, n0, hn0, _, hc⟩ := create_ok (lib := lib) (es := es) (a := args) (by rw [hes1])
          rw [hes1] at hc
          simp only at hc
          obtain ⟨hnid, hnorm⟩ := created_normalised hk herr hargs hn0
          have hg1 : ∀ e, es1.get? e = if a.new = e then some n0 else es.get? e := by
            intro e
            rw [hc]
            show (setEntity es.entities n0).find? _ = _
            rw [get?_setEntity, hnid]
            rfl
          unfold normFinish at h
          split at h
          · cases h
          · rename_i es2 hes2
            obtain ⟨x1, hx1, -, d2, d3, d4, d5, d6, d7⟩ := delete_get? (x := x) (by rw [hg1, if_neg hne, hx]) hes2
            split at h
            · cases h
            · rename_i es3 hes3
              obtain ⟨x2, hx2, c1, c2⟩ := convert_get? hx1 hes3
              split at h
              · cases h
              · rename_i es4 hes4
                cases h
                have hrel := relate_keeps lib es3 ⟨a.new, a.index, a.base, a.index⟩
                have hmem := relate_mem (lib := lib) (es := es3) (r := ⟨a.new, a.index, a.base, a.index⟩) (by rw [hes4])
                rw [hes4] at hrel hmem
                obtain ⟨y, hy, y1⟩ := (hrel a.base).1 x2 hx2
                have hn3 : es3.get? a.new = some n0 := by rw [c2 _ hne, d7 _ hne, hg1, if_pos rfl]
                obtain ⟨n, hn, n1⟩ := (hrel a.new).1 n0 hn3
                refine ⟨n, y, hn, hy, ?_, ?_, ?_, ?_, ?_, ?_, hmem, ?_⟩
                · exact ⟨n1.2.1.trans hnorm.index, by rw [n1.2.2.2.1]; exact hnorm.cols, by rw [n1.2.2.1]; exact hnorm.distinct,
                    by rw [n1.2.2.1]; exact hnorm.values, by rw [n1.2.2.1]; exact hnorm.first⟩
                · rw [y1.2.1, c1.2.1, d2]
                · rw [y1.2.2.1, c1.2.2.1, d3]
                · rw [y1.2.2.2.1, c1.2.2.2.1, d4]
                · rw [y1.2.2.2.2.1, c1.2.2.2.2.1, d5]
                · rw [y1.2.2.2.2.2, c1.2.2.2.2.2, d6]
                · intro e h1 h2
                  show es4.get? e = _
                  rw [(hrel e).2 (by rintro (h | h) <;> contradiction), c2 e h2, d7 e h2, hg1, if_neg (Ne.symm h1)]

end FT
