import Verif.Spec.Created
import Verif.Lemmas.Normalize
import Verif.Lemmas.EntitySetEq
/-! # Lemmas on new entities -/
namespace FT
open Spec

/-- What setting index and time index does to a variable. -/
def retype (lib : Lib) (f : DataFrame) (index : String) (ti : Option String) (y : Var) : Var :=
  let y1 := if y.id == index then y.createFrom "index" else y
  match ti with
  | some t => if y1.id == t then y1.createFrom (timeIndexType lib f t) else y1
  | none => y1

theorem convertType_of {x : Entity} {v t : String} (h : v ∈ x.vars.map Var.id) :
    x.convertType v t = .ok { x with vars := x.vars.map fun y => if y.id == v then y.createFrom t else y } := by
  unfold Entity.convertType Entity.var?
  cases hf : x.vars.find? fun y => y.id == v with
  | none =>
    obtain ⟨y, hy, rfl⟩ := List.mem_map.mp h
    exact absurd (List.find?_eq_none.mp hf y hy) (by simp)
  | some y => rfl

theorem setIndex_of {x : Entity} {i : String} (h : i ∈ x.vars.map Var.id) (hc : i ∈ x.df.cols) :
    x.setIndex i = if (x.df.rows.map fun r => r i).Nodup
      then .ok { x with index := i, vars := x.vars.map fun y => if y.id == i then y.createFrom "index" else y }
      else .error .assertionError := by
  unfold Entity.setIndex
  rw [if_pos (by simpa using hc), convertType_of h]
  by_cases hd : (x.df.rows.map fun r => r i).Nodup
  · rw [if_pos hd, if_neg]
    simpa using (dedup_eq_self _).mpr hd
  · rw [if_neg hd, if_pos]
    intro he
    exact hd ((dedup_eq_self _).mp he)

theorem checkSecondary_iff (lib : Lib) (tt : Option TimeType) (df : DataFrame) (sec : List (String × List String)) :
    checkSecondary lib tt df sec = none ↔ ∀ s ∈ sec, s.1 ∈ df.cols ∧ tt = lib.timeType df s.1 ∧ tt ≠ none := by
  induction sec with
  | nil => simp [checkSecondary]
  | cons s l ih =>
    unfold checkSecondary
    by_cases hc : s.1 ∈ df.cols
    · rw [if_pos (by simpa using hc)]
      cases ht : lib.timeType df s.1 with
      | none => simp only [reduceCtorEq, List.forall_mem_cons, false_iff]; rintro ⟨⟨_, h, h'⟩, _⟩; rw [ht] at h; exact h' h
      | some ty =>
        simp only [List.forall_mem_cons]
        by_cases he : tt = some ty
        · rw [if_pos he, ih]
          constructor
          · intro h; exact ⟨⟨hc, by rw [ht]; exact he, by rw [he]; simp⟩, h⟩
          · exact fun h => h.2
        · rw [if_neg he]
          simp only [reduceCtorEq, false_iff]
          rintro ⟨⟨_, h, _⟩, _⟩
          rw [ht] at h; exact he h
    · rw [if_neg (by simpa using hc)]
      simp only [reduceCtorEq, List.forall_mem_cons, false_iff]
      rintro ⟨⟨h, _⟩, _⟩
      exact hc h

/-- The frame after setting the time index. -/
def orderedFrame (f : DataFrame) (index : String) (ti : Option String) (sorted : Bool) : DataFrame :=
  match ti with
  | some t => if sorted then f else { f with rows := sortRows t index f.rows }
  | none => f

/-- The time type of the entity set afterwards fits the time index. -/
def TimeFits (lib : Lib) (tt tt' : Option TimeType) (f : DataFrame) (ti : Option String) : Prop :=
  match ti with
  | some t => t ∈ f.cols ∧ ∃ ty, lib.timeType f t = some ty ∧ tt' = some ty ∧ (tt = none ∨ tt = some ty)
  | none => tt' = tt

theorem setTimeIndex_of {lib : Lib} {tt : Option TimeType} {x : Entity} {t : String} {sorted : Bool} {tt' : Option TimeType} {y : Entity}
    (hv : x.df.cols = x.vars.map Var.id) :
    x.setTimeIndex lib tt t sorted = (tt', .ok y) ↔ TimeFits lib tt tt' x.df (some t) ∧
      y = { x with vars := x.vars.map (fun y => if y.id == t then y.createFrom (timeIndexType lib x.df t) else y), timeIndex := some t
                   df := orderedFrame x.df x.index (some t) sorted } := by
  unfold Entity.setTimeIndex TimeFits
  by_cases hc : t ∈ x.df.cols
  · rw [if_pos (by simpa using hc)]
    cases ht : lib.timeType x.df t with
    | none =>
      simp only [Prod.mk.injEq, reduceCtorEq, and_false, false_iff]
      rintro ⟨⟨_, ty', h1, _⟩, _⟩
      exact absurd (ht.symm.trans h1) (by simp)
    | some ty =>
      simp only
      by_cases he : tt = none ∨ tt = some ty
      · rw [if_pos he, convertType_of (by rw [← hv]; exact hc)]
        simp only [Prod.mk.injEq, Except.ok.injEq, orderedFrame]
        constructor
        · rintro ⟨rfl, rfl⟩; exact ⟨⟨hc, _, ht, rfl, he⟩, rfl⟩
        · rintro ⟨⟨_, ty', h1, rfl, _⟩, rfl⟩; exact ⟨ht.symm.trans h1, rfl⟩
      · rw [if_neg he]
        simp only [Prod.mk.injEq, reduceCtorEq, and_false, false_iff]
        rintro ⟨⟨_, ty', h1, _, h2⟩, _⟩
        cases ht.symm.trans h1; exact he h2
  · rw [if_neg (by simpa using hc)]
    simp only [Prod.mk.injEq, reduceCtorEq, and_false, false_iff]
    rintro ⟨⟨h, _⟩, _⟩; exact hc h

theorem setSecondary_iff {lib : Lib} {tt : Option TimeType} {x y : Entity} {sec : List (String × List String)} :
    x.setSecondary lib tt sec = .ok y ↔ checkSecondary lib tt x.df sec = none ∧ y = { x with secondary := addOwnColumn sec } := by
  unfold Entity.setSecondary
  cases checkSecondary lib tt x.df sec with
  | none => simp [eq_comm]
  | some e => simp

theorem finish_iff {lib : Lib} {tt tt' : Option TimeType} {x y : Entity} {index : String} {a : EntityArgs}
    (hi : index ∈ x.df.cols) (hv : x.df.cols = x.vars.map Var.id) (hx : x.timeIndex = none) :
    finishEntity lib tt x index a = (tt', .ok y) ↔
      (x.df.rows.map fun r => r index).Nodup ∧ TimeFits lib tt tt' x.df a.timeIndex ∧
      checkSecondary lib tt' (orderedFrame x.df index a.timeIndex a.sorted) a.secondary = none ∧
      y = { x with index := index, timeIndex := a.timeIndex, secondary := addOwnColumn a.secondary
                   vars := x.vars.map (retype lib x.df index a.timeIndex), df := orderedFrame x.df index a.timeIndex a.sorted } := by
  unfold finishEntity
  rw [setIndex_of (by rw [← hv]; exact hi) hi]
  by_cases hd : (x.df.rows.map fun r => r index).Nodup
  · rw [if_pos hd]
    simp only [hd, true_and]
    cases ht : a.timeIndex with
    | none =>
      simp only [Prod.mk.injEq, setSecondary_iff, orderedFrame, TimeFits]
      constructor
      · rintro ⟨rfl, h1, rfl⟩; exact ⟨rfl, h1, by simp only [hx]; rfl⟩
      · rintro ⟨rfl, h1, rfl⟩; exact ⟨rfl, h1, by simp only [hx]; rfl⟩
    | some t =>
      have hv' : x.df.cols = (x.vars.map fun y => if y.id == index then y.createFrom "index" else y).map Var.id := by
        rw [hv, List.map_map]
        apply List.map_congr_left
        intro z _
        simp only [Function.comp]
        split <;> rfl
      simp only
      have key := fun tt' y => setTimeIndex_of (lib := lib) (tt := tt) (t := t) (sorted := a.sorted) (tt' := tt') (y := y)
        (x := { x with index := index, vars := x.vars.map fun y => if y.id == index then y.createFrom "index" else y }) hv'
      generalize hr : Entity.setTimeIndex lib tt _ t a.sorted = r at key ⊢
      obtain ⟨r1, r2⟩ := r
      have hm : ∀ ti, (x.vars.map fun y => if y.id == index then y.createFrom "index" else y).map
          (fun y => if y.id == t then y.createFrom ti else y) = x.vars.map fun y =>
            (fun y1 : Var => if y1.id == t then y1.createFrom ti else y1) (if y.id == index then y.createFrom "index" else y) := by
        intro ti; rw [List.map_map]; rfl
      cases r2 with
      | error e =>
        simp only [Prod.mk.injEq, reduceCtorEq, and_false, false_iff]
        rintro ⟨h1, _⟩
        have := (key tt' _).mpr ⟨h1, rfl⟩
        cases this
      | ok z =>
        simp only [Prod.mk.injEq, setSecondary_iff]
        obtain ⟨h1, h2⟩ := (key r1 z).mp rfl
        simp only at h1 h2
        constructor
        · rintro ⟨rfl, h3, rfl⟩
          refine ⟨h1, by rw [h2] at h3; exact h3, ?_⟩
          rw [h2]
          simp only [hm]
          rfl
        · rintro ⟨h3, h4, rfl⟩
          have := (key tt' _).mpr ⟨h3, rfl⟩
          simp only [Prod.mk.injEq, Except.ok.injEq] at this
          obtain ⟨rfl, rfl⟩ := this
          refine ⟨rfl, h4, ?_⟩
          simp only [hm]
          rfl
  · rw [if_neg hd]
    simp [hd]

/-! ### Index, links and variables -/

theorem createIndex_iff {a : EntityArgs} {created : Option String} {index : String} {df : DataFrame} :
    createIndex a.index a.makeIndex a.df = .ok (created, index, df) ↔
      IndexIs a index ∧ df = withIndex index a.df ∧ created = (if index ∈ a.df.cols then none else some index) := by
  have hw : ∀ i, i ∉ a.df.cols → insertRange i a.df = withIndex i a.df := fun i h => by
    unfold withIndex insertRange; rw [if_neg h]
  unfold createIndex IndexIs
  cases hi : a.index with
  | none =>
    cases hm : a.makeIndex with
    | true => simp
    | false =>
      simp only [Bool.false_eq_true, if_false]
      cases hc : a.df.cols with
      | nil => simp
      | cons c cs =>
        simp only [Except.ok.injEq, Prod.mk.injEq, List.head?_cons, Option.some.injEq, reduceCtorEq, false_and, false_or, true_and]
        constructor
        · rintro ⟨rfl, rfl, rfl⟩
          refine ⟨rfl, ?_, by simp⟩
          unfold withIndex; rw [if_pos (by rw [hc]; simp)]
        · rintro ⟨rfl, rfl, rfl⟩
          refine ⟨by simp, rfl, ?_⟩
          unfold withIndex; rw [if_pos (by rw [hc]; simp)]
  | some i =>
    simp only [Bool.and_eq_true, List.contains_iff_mem, Option.some.injEq, reduceCtorEq, false_and, or_false]
    by_cases hc : i ∈ a.df.cols
    · by_cases hm : a.makeIndex = true
      · rw [if_pos ⟨hm, hc⟩]
        simp only [reduceCtorEq, false_iff]
        rintro ⟨⟨rfl, h⟩, _⟩
        exact h hm hc
      · rw [if_neg (fun h => hm h.1), if_pos hc]
        simp only [Except.ok.injEq, Prod.mk.injEq]
        constructor
        · rintro ⟨rfl, rfl, rfl⟩
          refine ⟨⟨rfl, fun h => absurd h hm⟩, ?_, by rw [if_pos hc]⟩
          unfold withIndex; rw [if_pos hc]
        · rintro ⟨⟨rfl, _⟩, rfl, rfl⟩
          refine ⟨by rw [if_pos hc], rfl, ?_⟩
          unfold withIndex; rw [if_pos hc]
    · rw [if_neg (fun h => hc h.2), if_neg hc]
      simp only [Except.ok.injEq, Prod.mk.injEq]
      constructor
      · rintro ⟨rfl, rfl, rfl⟩
        exact ⟨⟨rfl, fun _ => hc⟩, hw _ hc, by rw [if_neg hc]⟩
      · rintro ⟨⟨rfl, _⟩, rfl, rfl⟩
        exact ⟨by rw [if_neg hc], rfl, hw _ hc⟩

theorem withIndex_mem (i c : String) (f : DataFrame) : c ∈ (withIndex i f).cols ↔ c ∈ f.cols ∨ c = i := by
  unfold withIndex
  split
  · rename_i h
    constructor
    · exact .inl
    · rintro (h' | rfl)
      · exact h'
      · exact h
  · simp [or_comm]

theorem withIndex_nodup {i : String} {f : DataFrame} (h : f.cols.Nodup) : (withIndex i f).cols.Nodup := by
  unfold withIndex
  split
  · exact h
  · rename_i hn; exact List.nodup_cons.mpr ⟨hn, h⟩

theorem linkedVars_ok {es : ESet} {e : String} {rels : List Relationship} {l : List String} (h : linkedVars es e rels = .ok l) (c : String) :
    c ∈ l ↔ ∃ r ∈ rels, (r.parentE = e ∧ r.parentV = c) ∨ (r.childE = e ∧ r.childV = c) := by
  induction rels generalizing l with
  | nil => cases h; simp
  | cons r rs ih =>
    unfold linkedVars at h
    split at h
    · rename_i p q l' _ _ hl
      have ih := ih hl
      have hex : (∃ r' ∈ r :: rs, (r'.parentE = e ∧ r'.parentV = c) ∨ (r'.childE = e ∧ r'.childV = c)) ↔
          (((r.parentE = e ∧ r.parentV = c) ∨ (r.childE = e ∧ r.childV = c)) ∨ ∃ r' ∈ rs, (r'.parentE = e ∧ r'.parentV = c) ∨ (r'.childE = e ∧ r'.childV = c)) := by simp
      rw [hex]
      split at h
      · split at h
        · cases h
          simp only [List.mem_append, ih]
          by_cases h1 : r.parentE = e <;> by_cases h2 : r.childE = e <;> simp [h1, h2, eq_comm, or_assoc]
        · cases h
      · rename_i hn
        cases h
        rw [ih]
        constructor
        · exact .inr
        · rintro ((⟨h, _⟩ | ⟨h, _⟩) | h)
          · exact absurd (.inl h) hn
          · exact absurd (.inr h) hn
          · exact h
    · cases h
    · cases h

theorem linkedVars_new {es : ESet} {e : String} {rels : List Relationship}
    (h : ∀ r ∈ rels, (es.get? r.parentE).isSome ∧ (es.get? r.childE).isSome ∧ r.parentE ≠ e ∧ r.childE ≠ e) : linkedVars es e rels = .ok [] := by
  induction rels with
  | nil => rfl
  | cons r rs ih =>
    obtain ⟨h1, h2, h3, h4⟩ := h r (List.mem_cons_self ..)
    obtain ⟨p, hp⟩ := Option.isSome_iff_exists.mp h1
    obtain ⟨q, hq⟩ := Option.isSome_iff_exists.mp h2
    unfold linkedVars
    rw [hp, hq, ih fun r hr => h r (List.mem_cons_of_mem _ hr)]
    simp [h3, h4]

theorem givenTypes_eq (lib : Lib) (a : EntityArgs) (i : String) : givenTypes lib a.types i = givenNow lib a i := by
  have hm : givenTypes lib a.types i = (let given := a.types.map fun p => (p.1, asked lib p.2)
      if given.any (fun p => p.1 == i) then given else given ++ [(i, "index")]) := by
    unfold givenTypes
    congr 1
  rw [hm]
  unfold givenNow
  simp only
  by_cases h : i ∈ a.types.map Prod.fst
  · rw [if_pos h, List.append_nil, if_pos]
    obtain ⟨p, hp, rfl⟩ := List.mem_map.mp h
    rw [List.any_eq_true]
    exact ⟨(p.1, asked lib p.2), List.mem_map.mpr ⟨p, hp, rfl⟩, by simp⟩
  · rw [if_neg h, if_neg]
    rw [List.any_eq_true]
    rintro ⟨p, hp, he⟩
    obtain ⟨q, hq, rfl⟩ := List.mem_map.mp hp
    simp only [beq_iff_eq] at he
    exact h (he ▸ List.mem_map_of_mem hq)

theorem givenNow_fst (lib : Lib) (a : EntityArgs) (i c : String) : c ∈ (givenNow lib a i).map Prod.fst ↔ c ∈ a.types.map Prod.fst ∨ c = i := by
  unfold givenNow
  rw [List.map_append, List.mem_append, List.map_map]
  have : (a.types.map (Prod.fst ∘ fun p => (p.1, asked lib p.2))) = a.types.map Prod.fst := rfl
  rw [this]
  by_cases h : i ∈ a.types.map Prod.fst
  · rw [if_pos h]
    constructor
    · rintro (h' | h')
      · exact .inl h'
      · simp at h'
    · rintro (h' | rfl)
      · exact .inl h'
      · exact .inl h
  · rw [if_neg h]; simp

theorem givenNow_nodup (lib : Lib) (a : EntityArgs) (i : String) (h : (a.types.map Prod.fst).Nodup) : ((givenNow lib a i).map Prod.fst).Nodup := by
  unfold givenNow
  rw [List.map_append, List.map_map]
  have : (a.types.map (Prod.fst ∘ fun p => (p.1, asked lib p.2))) = a.types.map Prod.fst := rfl
  rw [this]
  by_cases hi : i ∈ a.types.map Prod.fst
  · rw [if_pos hi]; simpa using h
  · rw [if_neg hi, List.nodup_append]
    refine ⟨h, by simp, ?_⟩
    intro x hx y hy
    simp only [List.map_cons, List.map_nil, List.mem_singleton] at hy
    subst hy
    rintro rfl
    exact hi hx

/-- All types, inferred and given. -/
def allTypes (lib : Lib) (link : List String) (df : DataFrame) (a : EntityArgs) (i : String) : List (String × String) :=
  lib.infer df link (givenNow lib a i) a.timeIndex a.secondary ++ givenNow lib a i

theorem allTypes_ids {lib : Lib} (hl : LibOk lib) (link : List String) (df : DataFrame) (a : EntityArgs) (i : String)
    (hi : i ∈ df.cols) (ht : ∀ p ∈ a.types, p.1 ∈ df.cols) (hd : (a.types.map Prod.fst).Nodup) (hn : df.cols.Nodup) :
    ((allTypes lib link df a i).map Prod.fst).Perm df.cols := by
  unfold allTypes
  rw [List.map_append, hl.infers]
  have hsub : ∀ c ∈ (givenNow lib a i).map Prod.fst, c ∈ df.cols := by
    intro c hc
    rcases (givenNow_fst lib a i c).mp hc with h | rfl
    · obtain ⟨p, hp, rfl⟩ := List.mem_map.mp h; exact ht p hp
    · exact hi
  refine (List.perm_ext_iff_of_nodup ?_ hn).mpr ?_
  · rw [List.nodup_append]
    refine ⟨hn.sublist List.filter_sublist, givenNow_nodup lib a i hd, ?_⟩
    intro x hx y hy
    rintro rfl
    have := (List.mem_filter.mp hx).2
    simp only [decide_eq_true_eq] at this
    exact this hy
  · intro c
    rw [List.mem_append, List.mem_filter]
    constructor
    · rintro (h | h)
      · exact h.1
      · exact hsub c h
    · intro h
      by_cases hg : c ∈ (givenNow lib a i).map Prod.fst
      · exact .inr hg
      · exact .inl ⟨h, by simpa using hg⟩

theorem allTypes_all {lib : Lib} (hl : LibOk lib) (link : List String) (df : DataFrame) (a : EntityArgs) (i : String) (hi : i ∈ df.cols) :
    ((allTypes lib link df a i).all fun p => df.cols.contains p.1) = true ↔ ∀ p ∈ a.types, p.1 ∈ df.cols := by
  rw [List.all_eq_true]
  constructor
  · intro h p hp
    have : p.1 ∈ (givenNow lib a i).map Prod.fst := (givenNow_fst ..).mpr (.inl (List.mem_map_of_mem hp))
    obtain ⟨q, hq, he⟩ := List.mem_map.mp this
    have := h q (List.mem_append_right _ hq)
    rw [he] at this
    simpa using this
  · intro h p hp
    rcases List.mem_append.mp hp with hp | hp
    · have : p.1 ∈ (lib.infer df link (givenNow lib a i) a.timeIndex a.secondary).map Prod.fst := List.mem_map_of_mem hp
      rw [hl.infers] at this
      simpa using (List.mem_filter.mp this).1
    · have : p.1 ∈ (givenNow lib a i).map Prod.fst := List.mem_map_of_mem hp
      rcases (givenNow_fst ..).mp this with h' | h'
      · obtain ⟨q, hq, he⟩ := List.mem_map.mp h'
        rw [← he]; simpa using h q hq
      · rw [h']; simpa using hi

/-- The variables, that of the index first. -/
def orderedVars (all : List (String × String)) (i : String) : List Var :=
  (all.filter fun p => p.1 == i).map newVar ++ (all.filter fun p => p.1 != i).map newVar

theorem orderedVars_perm (all : List (String × String)) (i : String) : (orderedVars all i).Perm (all.map newVar) := by
  unfold orderedVars
  rw [← List.map_append]
  exact (List.filter_append_perm (fun p : String × String => p.1 == i) all).map _

theorem newVar_ids (all : List (String × String)) : (all.map newVar).map Var.id = all.map Prod.fst := by
  rw [List.map_map]; rfl

theorem orderedVars_head {all : List (String × String)} {i : String} (h : i ∈ all.map Prod.fst) :
    ((orderedVars all i).map Var.id).head? = some i := by
  obtain ⟨p, hp, he⟩ := List.mem_map.mp h
  unfold orderedVars
  have hm : p ∈ all.filter fun p => p.1 == i := List.mem_filter.mpr ⟨hp, by simpa using he⟩
  cases hf : all.filter fun p => p.1 == i with
  | nil => rw [hf] at hm; cases hm
  | cons q l =>
    have : q ∈ all.filter fun p => p.1 == i := by rw [hf]; simp
    have := (List.mem_filter.mp this).2
    simp only [List.map_cons, List.cons_append, List.head?_cons, Option.some.injEq]
    simpa [newVar] using this

theorem createVars_iff {lib : Lib} {link : List String} {df : DataFrame} {a : EntityArgs} {i : String} {vars : List Var} {g : DataFrame} :
    createVars lib link df a.types i a.timeIndex a.secondary = .ok (vars, g) ↔
      ((allTypes lib link df a i).all fun p => df.cols.contains p.1) = true ∧ lib.convert df (allTypes lib link df a i) = .ok g ∧
      vars = orderedVars (allTypes lib link df a i) i := by
  unfold createVars
  simp only [givenTypes_eq]
  show (if (allTypes lib link df a i).all fun p => df.cols.contains p.1 then _ else _) = _ ↔ _
  by_cases h : ((allTypes lib link df a i).all fun p => df.cols.contains p.1) = true
  · rw [if_pos h]
    show (match lib.convert df (allTypes lib link df a i) with | .error e => _ | .ok df => _) = _ ↔ _
    cases hc : lib.convert df (allTypes lib link df a i) with
    | error e => simp
    | ok g' =>
      simp only [Except.ok.injEq, Prod.mk.injEq, h, true_and]
      constructor
      · rintro ⟨rfl, rfl⟩; exact ⟨rfl, rfl⟩
      · rintro ⟨rfl, rfl⟩; exact ⟨rfl, rfl⟩
  · rw [if_neg h]
    constructor
    · intro h'; cases h'
    · intro h'; exact absurd h'.1 h

/-- When `Entity.__init__` succeeds, and what it makes. -/
theorem newEntity_iff {lib : Lib} {es : ESet} {a : EntityArgs} {tt : Option TimeType} {x : Entity} :
    newEntity lib es a = (tt, .ok x) ↔ validateParams a.df a.timeIndex = none ∧ ∃ i link g, IndexIs a i ∧ linkedVars es a.id es.rels = .ok link ∧
      ((allTypes lib link (withIndex i a.df) a i).all fun p => (withIndex i a.df).cols.contains p.1) = true ∧
      lib.convert (withIndex i a.df) (allTypes lib link (withIndex i a.df) a i) = .ok g ∧
      let f : DataFrame := { g with cols := (orderedVars (allTypes lib link (withIndex i a.df) a i) i).map Var.id }
      (f.rows.map fun r => r i).Nodup ∧ TimeFits lib es.timeType tt f a.timeIndex ∧
      checkSecondary lib tt (orderedFrame f i a.timeIndex a.sorted) a.secondary = none ∧
      x = { id := a.id, index := i, timeIndex := a.timeIndex, secondary := addOwnColumn a.secondary
            created := if i ∈ a.df.cols then none else some i
            vars := (orderedVars (allTypes lib link (withIndex i a.df) a i) i).map (retype lib f i a.timeIndex)
            df := orderedFrame f i a.timeIndex a.sorted, lti := none } := by
  have hii : ∀ link df i, i ∈ (orderedVars (allTypes lib link df a i) i).map Var.id := by
    intro link df i
    refine ((orderedVars_perm _ _).map Var.id).mem_iff.mpr ?_
    rw [newVar_ids]
    unfold allTypes
    rw [List.map_append]
    exact List.mem_append_right _ ((givenNow_fst ..).mpr (.inr rfl))
  unfold newEntity
  cases hv : validateParams a.df a.timeIndex with
  | some e => simp
  | none =>
    simp only [true_and]
    cases hci : createIndex a.index a.makeIndex a.df with
    | error e =>
      simp only [Prod.mk.injEq, reduceCtorEq, and_false, false_iff]
      rintro ⟨i, link, g, h1, _⟩
      have := createIndex_iff.mpr ⟨h1, rfl, rfl⟩
      rw [hci] at this
      cases this
    | ok p =>
      obtain ⟨created, i, df⟩ := p
      obtain ⟨c1, rfl, rfl⟩ := createIndex_iff.mp hci
      have huniq : ∀ j, IndexIs a j → j = i := by
        intro j hj
        have := createIndex_iff.mpr ⟨hj, rfl, rfl⟩
        rw [hci] at this
        simp only [Except.ok.injEq, Prod.mk.injEq] at this
        exact this.2.1.symm
      simp only
      cases hlk : linkedVars es a.id es.rels with
      | error e => simp
      | ok link =>
        simp only
        cases hcv : createVars lib link (withIndex i a.df) a.types i a.timeIndex a.secondary with
        | error e =>
          simp only [Prod.mk.injEq, reduceCtorEq, and_false, false_iff]
          rintro ⟨j, link', g, h1, h2, h3, h4, _⟩
          cases h2
          have hj := huniq j h1
          subst hj
          have := createVars_iff.mpr ⟨h3, h4, rfl⟩
          rw [hcv] at this; cases this
        | ok q =>
          obtain ⟨vars, g⟩ := q
          obtain ⟨v1, v2, rfl⟩ := createVars_iff.mp hcv
          simp only
          rw [finish_iff (hii ..) rfl rfl]
          constructor
          · rintro ⟨h1, h2, h3, h4⟩
            exact ⟨i, link, g, c1, rfl, v1, v2, h1, h2, h3, h4⟩
          · rintro ⟨j, link', g', k1, k2, k3, k4, h1, h2, h3, h4⟩
            have hj := huniq j k1
            subst hj
            cases k2
            rw [v2] at k4
            cases k4
            exact ⟨h1, h2, h3, h4⟩

theorem retype_id (lib : Lib) (f : DataFrame) (i : String) (ti : Option String) (y : Var) : (retype lib f i ti y).id = y.id := by
  have h1 : (if y.id == i then y.createFrom "index" else y).id = y.id := by split <;> rfl
  unfold retype
  cases ti with
  | none => exact h1
  | some t =>
    refine Eq.trans ?_ h1
    generalize (if y.id == i then y.createFrom "index" else y) = z
    simp only
    split <;> rfl

theorem retype_type (lib : Lib) (f : DataFrame) (i : String) (ti : Option String) (p : String × String) :
    (retype lib f i ti (newVar p)).type = if ti = some p.1 then timeIndexType lib f p.1 else if p.1 = i then "index" else p.2 := by
  have hid : (if (newVar p).id == i then (newVar p).createFrom "index" else newVar p).id = p.1 := by split <;> rfl
  have hty : (if (newVar p).id == i then (newVar p).createFrom "index" else newVar p).type = if p.1 = i then "index" else p.2 := by
    by_cases h : p.1 = i
    · have : ((newVar p).id == i) = true := by simpa [newVar] using h
      rw [if_pos this, if_pos h]; rfl
    · have : ¬ ((newVar p).id == i) = true := by simpa [newVar] using h
      rw [if_neg this, if_neg h]; rfl
  unfold retype
  cases ti with
  | none => simp only [reduceCtorEq, if_false]; exact hty
  | some t =>
    generalize (if (newVar p).id == i then (newVar p).createFrom "index" else newVar p) = z at hid hty ⊢
    simp only [hid]
    by_cases h : p.1 = t
    · subst h; rw [if_pos (by simp), if_pos rfl]; rfl
    · rw [if_neg (by simpa using h), if_neg (by simpa using Ne.symm h)]; exact hty

theorem orderedFrame_cols (f : DataFrame) (i : String) (ti : Option String) (s : Bool) : (orderedFrame f i ti s).cols = f.cols := by
  unfold orderedFrame
  split
  · split <;> rfl
  · rfl

theorem orderedFrame_perm (f : DataFrame) (i : String) (ti : Option String) (s : Bool) : (orderedFrame f i ti s).rows.Perm f.rows := by
  unfold orderedFrame
  split
  · split
    · exact .refl _
    · exact isort_rows_perm ..
  · exact .refl _

theorem validateParams_iff (df : DataFrame) (ti : Option String) :
    validateParams df ti = none ↔ df.cols.Nodup ∧ ∀ t, ti = some t → t ∈ df.cols := by
  unfold validateParams
  by_cases h : dedup df.cols = df.cols
  · rw [if_neg (by simpa using h)]
    have := (dedup_eq_self _).mp h
    cases ti with
    | none => simp [this]
    | some t => simp [this]
  · rw [if_pos h]
    simp only [reduceCtorEq, false_iff]
    rintro ⟨h', _⟩
    exact h ((dedup_eq_self _).mpr h')

theorem entityArgsError_iff (a : EntityArgs) : entityArgsError a = none ↔ (∀ t, a.timeIndex = some t → a.index ≠ some t) ∧
    (a.timeIndex = none → ∀ p ∈ a.types, p.2 ≠ .cls "datetime_time_index") := by
  unfold entityArgsError
  cases ht : a.timeIndex with
  | none =>
    simp only [ne_eq, not_true_eq_false, false_and, if_false, true_and, reduceCtorEq, false_implies, implies_true, forall_const]
    by_cases h : (a.types.any fun p => p.2 == .cls "datetime_time_index") = true
    · rw [if_pos h]
      simp only [reduceCtorEq, false_iff]
      intro h'
      obtain ⟨p, hp, he⟩ := List.any_eq_true.mp h
      exact h' p hp (by simpa using he)
    · rw [if_neg h]
      simp only [true_iff]
      intro p hp he
      exact h (List.any_eq_true.mpr ⟨p, hp, by simpa using he⟩)
  | some t =>
    simp only [ne_eq, reduceCtorEq, not_false_eq_true, true_and, false_and, if_false, Option.some.injEq, forall_eq', false_implies, and_true]
    by_cases h : some t = a.index
    · rw [if_pos h]; simp [h]
    · rw [if_neg h]; simp [Ne.symm h]

theorem create_iff {lib : Lib} {es es' : ESet} {a : EntityArgs} :
    entityFromDataframe lib es a = (es', none) ↔ entityArgsError a = none ∧ ∃ tt x, newEntity lib es a = (tt, .ok x) ∧
      es' = { es with entities := setEntity es.entities x, timeType := tt, cache := none } := by
  unfold entityFromDataframe
  cases entityArgsError a with
  | some e => simp
  | none =>
    simp only [true_and]
    generalize newEntity lib es a = r
    obtain ⟨tt, r⟩ := r
    cases r with
    | error e => simp
    | ok x =>
      simp only [Prod.mk.injEq, and_true, Except.ok.injEq]
      constructor
      · rintro rfl; exact ⟨tt, x, ⟨rfl, rfl⟩, rfl⟩
      · rintro ⟨tt', x', ⟨rfl, rfl⟩, rfl⟩; rfl

theorem cells_perm {f g : DataFrame} (h : f.rows.Perm g.rows) (c : String) : (f.rows.map fun r => r c).Perm (g.rows.map fun r => r c) := h.map _

/-- A new entity is as expected. -/
theorem newEntity_created {lib : Lib} (hl : LibOk lib) {es : ESet} {a : EntityArgs} (hd : (a.types.map Prod.fst).Nodup) {tt : Option TimeType}
    {x : Entity} (h : newEntity lib es a = (tt, .ok x)) : IsCreated lib es a tt x := by
  obtain ⟨hv, i, link, g, h1, h2, h3, h4, h5, h6, h7, rfl⟩ := newEntity_iff.mp h
  obtain ⟨hcn, hct⟩ := (validateParams_iff ..).mp hv
  have hiw : i ∈ (withIndex i a.df).cols := (withIndex_mem ..).mpr (.inr rfl)
  have hty := (allTypes_all hl link (withIndex i a.df) a i hiw).mp h3
  have hids := allTypes_ids hl link (withIndex i a.df) a i hiw hty hd (withIndex_nodup hcn)
  have hg : g.rows = (withIndex i a.df).rows := by rw [hl.keeps _ _ _ h4]
  have hperm := orderedFrame_perm { g with cols := (orderedVars (allTypes lib link (withIndex i a.df) a i) i).map Var.id } i a.timeIndex a.sorted
  have hvid : ((orderedVars (allTypes lib link (withIndex i a.df) a i) i).map Var.id).Perm (withIndex i a.df).cols := by
    refine ((orderedVars_perm _ _).map Var.id).trans ?_
    rw [newVar_ids]; exact hids
  have hix : i ∈ (allTypes lib link (withIndex i a.df) a i).map Prod.fst := hids.mem_iff.mpr hiw
  refine { id := rfl, index := h1, timeIndex := rfl, secondary := ?_, cols := ?_, first := ?_, vars := ?_, types := ?_, rows := ?_, asGiven := ?_,
           ordered := ?_, time := ?_, noTime := ?_, secondaryTime := ?_ }
  · unfold addOwnColumn
    apply List.map_congr_left
    rintro ⟨t, cols⟩ _
    simp only [List.contains_iff_mem]
  · show (orderedFrame _ _ _ _).cols.Perm _
    rw [orderedFrame_cols]; exact hvid
  · show (orderedFrame _ _ _ _).cols.head? = _
    rw [orderedFrame_cols]; exact orderedVars_head hix
  · show List.map Var.id (List.map _ _) = (orderedFrame _ _ _ _).cols
    rw [orderedFrame_cols, List.map_map]
    apply List.map_congr_left
    intro y _
    exact retype_id ..
  · intro v hv'
    obtain ⟨y, hy, rfl⟩ := List.mem_map.mp hv'
    obtain ⟨p, hp, rfl⟩ := List.mem_map.mp ((orderedVars_perm _ _).mem_iff.mp hy)
    rw [retype_id, retype_type]
    show TypeIs lib es a _ p.1 _
    by_cases ht : a.timeIndex = some p.1
    · rw [if_pos ht]
      have hdate := hl.date _ _ p.1 (cells_perm hperm p.1)
      unfold timeIndexType
      rw [← hdate]
      by_cases hdt : lib.isDatetime (orderedFrame { g with cols := (orderedVars (allTypes lib link (withIndex i a.df) a i) i).map Var.id } i a.timeIndex a.sorted) p.1 = true
      · rw [if_pos hdt]; exact .date ht hdt
      · rw [if_neg hdt]; exact .number ht (by simpa using hdt)
    · rw [if_neg ht]
      by_cases hi : p.1 = i
      · rw [if_pos hi]; exact .index ht hi
      · rw [if_neg hi]
        rcases List.mem_append.mp hp with hp | hp
        · have hn : p.1 ∉ a.types.map Prod.fst := by
            have : p.1 ∈ (lib.infer (withIndex i a.df) link (givenNow lib a i) a.timeIndex a.secondary).map Prod.fst := List.mem_map_of_mem hp
            rw [hl.infers] at this
            have := (List.mem_filter.mp this).2
            simp only [decide_eq_true_eq] at this
            exact fun h => this ((givenNow_fst ..).mpr (.inl h))
          exact .inferred ht hi hn link (linkedVars_ok h2) p.2 hp
        · rcases List.mem_append.mp hp with hp | hp
          · obtain ⟨q, hq, rfl⟩ := List.mem_map.mp hp
            exact .given ht hi q.2 hq
          · split at hp
            · cases hp
            · rw [List.mem_singleton] at hp
              exact absurd (by rw [hp]) hi
  · show (orderedFrame _ _ _ _).rows.Perm _
    rw [← hg]; exact hperm
  · intro ho
    show (orderedFrame _ _ _ _).rows = _
    rw [← hg]
    unfold orderedFrame
    rcases ho with ho | ho
    · rw [ho]
    · rw [ho]; split <;> rfl
  · intro t ht hs
    show (orderedFrame _ _ _ _).rows.Pairwise _
    unfold orderedFrame
    rw [ht, hs]
    exact sortRows_sorted ..
  · intro t ht
    show _ = lib.timeType (orderedFrame _ _ _ _) t ∧ _
    rw [hl.time _ _ t (cells_perm hperm t)]
    unfold TimeFits at h6
    rw [ht] at h6
    obtain ⟨_, ty, k1, k2, k3⟩ := h6
    rw [k1, k2]
    exact ⟨rfl, by simp, k3⟩
  · intro ht
    unfold TimeFits at h6
    rw [ht] at h6
    exact h6
  · intro s hs
    exact ((checkSecondary_iff ..).mp h7 s hs).2

/-- When a new entity is made. -/
theorem newEntity_accepted {lib : Lib} (hl : LibOk lib) (hconv : ∀ f ts, ∃ g, lib.convert f ts = .ok g) {es : ESet} {a : EntityArgs}
    (hd : (a.types.map Prod.fst).Nodup) (hes : linkedVars es a.id es.rels = .ok []) (harg : entityArgsError a = none) :
    (∃ tt x, newEntity lib es a = (tt, .ok x)) ↔ ∃ i, Acceptable lib es a i := by
  have harg' := (entityArgsError_iff a).mp harg
  have htime : ∀ (i : String) (g : DataFrame) (cols : List String) (c : String), g.rows = (withIndex i a.df).rows →
      lib.timeType { g with cols := cols } c = lib.timeType (withIndex i a.df) c := by
    intro i g cols c hg
    refine hl.time _ _ c ?_
    show (g.rows.map _).Perm _
    rw [hg]
  constructor
  · rintro ⟨tt, x, h⟩
    obtain ⟨hv, i, link, g, h1, h2, h3, h4, h5, h6, h7, -⟩ := newEntity_iff.mp h
    obtain ⟨hcn, hct⟩ := (validateParams_iff ..).mp hv
    have hiw : i ∈ (withIndex i a.df).cols := (withIndex_mem ..).mpr (.inr rfl)
    have hty := (allTypes_all hl link (withIndex i a.df) a i hiw).mp h3
    have hids := allTypes_ids hl link (withIndex i a.df) a i hiw hty hd (withIndex_nodup hcn)
    have hg : g.rows = (withIndex i a.df).rows := by rw [hl.keeps _ _ _ h4]
    have hvid : ((orderedVars (allTypes lib link (withIndex i a.df) a i) i).map Var.id).Perm (withIndex i a.df).cols := by
      refine ((orderedVars_perm _ _).map Var.id).trans ?_
      rw [newVar_ids]; exact hids
    refine ⟨i, h1, harg'.1, harg'.2, hcn, ?_, fun p hp => (withIndex_mem ..).mp (hty p hp), ?_, ?_⟩
    · intro t ht
      unfold TimeFits at h6
      rw [ht] at h6
      obtain ⟨_, ty, k1, k2, k3⟩ := h6
      rw [htime i g _ t hg] at k1
      exact ⟨hct t ht, ty, k1, k3⟩
    · rw [← hg]; exact h5
    · intro s hs
      obtain ⟨m1, m2, m3⟩ := (checkSecondary_iff ..).mp h7 s hs
      rw [orderedFrame_cols] at m1
      refine ⟨(withIndex_mem ..).mp (hvid.mem_iff.mp m1), ?_⟩
      rw [hl.time _ _ s.1 (cells_perm (orderedFrame_perm ..) s.1), htime i g _ s.1 hg] at m2
      obtain ⟨ty, hty⟩ := Option.ne_none_iff_exists'.mp m3
      refine ⟨ty, by rw [← m2, hty], ?_⟩
      unfold TimeFits at h6
      cases ht : a.timeIndex with
      | none => rw [ht] at h6; simp only at h6 ⊢; rw [← h6, hty]
      | some t =>
        rw [ht] at h6
        obtain ⟨_, ty', k1, k2, k3⟩ := h6
        rw [htime i g _ t hg] at k1
        simp only
        rw [k1, ← k2, hty]
  · rintro ⟨i, h⟩
    have hiw : i ∈ (withIndex i a.df).cols := (withIndex_mem ..).mpr (.inr rfl)
    have hty : ∀ p ∈ a.types, p.1 ∈ (withIndex i a.df).cols := fun p hp => (withIndex_mem ..).mpr (h.types p hp)
    have hids := allTypes_ids hl [] (withIndex i a.df) a i hiw hty hd (withIndex_nodup h.cols)
    obtain ⟨g, hconv⟩ := hconv (withIndex i a.df) (allTypes lib [] (withIndex i a.df) a i)
    have hg : g.rows = (withIndex i a.df).rows := by rw [hl.keeps _ _ _ hconv]
    have hvid : ((orderedVars (allTypes lib [] (withIndex i a.df) a i) i).map Var.id).Perm (withIndex i a.df).cols := by
      refine ((orderedVars_perm _ _).map Var.id).trans ?_
      rw [newVar_ids]; exact hids
    refine ⟨match a.timeIndex with | some t => lib.timeType (withIndex i a.df) t | none => es.timeType, _, newEntity_iff.mpr
      ⟨(validateParams_iff ..).mpr ⟨h.cols, fun t ht => (h.time t ht).1⟩, i, [], g, h.index, hes, (allTypes_all hl [] _ a i hiw).mpr hty, hconv, ?_, ?_, ?_, rfl⟩⟩
    · show (g.rows.map fun r => r i).Nodup
      rw [hg]; exact h.distinct
    · unfold TimeFits
      cases ht : a.timeIndex with
      | none => rfl
      | some t =>
        obtain ⟨k1, ty, k2, k3⟩ := h.time t ht
        refine ⟨hvid.mem_iff.mpr ((withIndex_mem ..).mpr (.inl k1)), ty, ?_, k2, k3⟩
        rw [htime i g _ t hg]; exact k2
    · refine (checkSecondary_iff ..).mpr fun s hs => ?_
      obtain ⟨m1, ty, m2, m3⟩ := h.secondary s hs
      rw [orderedFrame_cols, hl.time _ _ s.1 (cells_perm (orderedFrame_perm ..) s.1), htime i g _ s.1 hg, m2]
      refine ⟨hvid.mem_iff.mpr ((withIndex_mem ..).mpr m1), ?_⟩
      cases ht : a.timeIndex with
      | none => rw [ht] at m3; simp only at m3 ⊢; rw [m3]; simp
      | some t => rw [ht] at m3; simp only at m3 ⊢; rw [m3]; simp

end FT
