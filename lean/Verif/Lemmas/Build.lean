import Verif.Spec.Build
import Verif.Lemmas.Schema
import Verif.Props.Schema
/-! Lemmas about features built by hand. -/
namespace FT
open Spec

theorem checkFeature_ok {a : BArg} {f : BFeat} : checkFeature a = .ok f ↔ StandsFor a f := by
  constructor
  · intro h
    cases a with
    | feature g => simp only [checkFeature, Except.ok.injEq] at h; subst h; exact .feature _
    | var g => simp only [checkFeature, Except.ok.injEq] at h; subst h; exact .var _
    | other => simp [checkFeature] at h
  · rintro (_ | _) <;> rfl

theorem checkFeatures_ok {l : List BArg} {fs : List BFeat} : checkFeatures l = .ok fs ↔ StandForAll l fs := by
  induction l generalizing fs with
  | nil =>
    constructor
    · intro h; simp only [checkFeatures, Except.ok.injEq] at h; subst h; exact .nil
    · intro h; cases h; rfl
  | cons a l ih =>
    constructor
    · intro h
      simp only [checkFeatures] at h
      cases e : checkFeature a with
      | error x => rw [e] at h; cases h
      | ok f =>
        rw [e] at h
        cases e2 : checkFeatures l with
        | error x => rw [e2] at h; cases h
        | ok gs =>
          rw [e2] at h
          cases h
          exact .cons (checkFeature_ok.mp e) (ih.mp e2)
    · intro h
      cases h with
      | cons h1 h2 => simp only [checkFeatures, checkFeature_ok.mpr h1, ih.mpr h2]

theorem sameEnt_iff {a b : BuildEnt} : sameEnt a b = true ↔ SeenAlike a b := by
  simp only [sameEnt, Bool.and_eq_true, beq_iff_eq, List.all_eq_true, List.contains_iff_mem]
  constructor
  · rintro ⟨⟨⟨⟨h1, h2⟩, h3⟩, h4⟩, ⟨h5, h6⟩, h7⟩
    exact ⟨h1, h2, h3, h4, h5, fun v => ⟨h6 v, h7 v⟩⟩
  · intro h
    exact ⟨⟨⟨⟨h.id, h.index⟩, h.timeIndex⟩, h.secondary⟩, ⟨h.count, fun v => (h.vars v).mp⟩, fun v => (h.vars v).mpr⟩

theorem Spec.SeenAlike.rfl' {a : BuildEnt} : SeenAlike a a := ⟨rfl, rfl, rfl, rfl, rfl, fun _ => Iff.rfl⟩

theorem noMulti {fs : List BFeat} : (fs.any fun f => decide (f.outputs > 1)) = false ↔ ∀ g ∈ fs, g.outputs ≤ 1 := by
  simp only [List.any_eq_false, decide_eq_true_eq]
  constructor
  · intro h g hg; have := h g hg; omega
  · intro h g hg; have := h g hg; omega

theorem checkBases_ok {b : BList} {f : BFeat} {fs : List BFeat} :
    checkBases b = .ok (f :: fs) ↔ GivenBases b (f :: fs) ∧ Usable (f :: fs) f := by
  cases b with
  | one a =>
    unfold checkBases
    dsimp only
    constructor
    · intro h
      cases e : checkFeatures [a] with
      | error x => rw [e] at h; cases h
      | ok gs =>
        rw [e] at h
        dsimp only at h
        cases hm : (gs.any fun f => decide (f.outputs > 1)) with
        | true => simp [hm] at h
        | false =>
          simp only [hm] at h
          cases h
          have hg := checkFeatures_ok.mp e
          refine ⟨hg, rfl, noMulti.mp hm, ?_⟩
          cases hg with
          | cons _ h2 =>
            cases h2
            intro g hg
            simp only [List.mem_cons, List.not_mem_nil, or_false] at hg
            subst hg; exact Spec.SeenAlike.rfl'
    · rintro ⟨hg, hu⟩
      rw [checkFeatures_ok.mpr hg]
      dsimp only
      rw [noMulti.mpr hu.single]; rfl
  | many l =>
    unfold checkBases
    dsimp only
    constructor
    · intro h
      cases e : checkFeatures l with
      | error x => rw [e] at h; cases h
      | ok gs =>
        rw [e] at h
        dsimp only at h
        cases gs with
        | nil => cases h
        | cons g gs =>
          dsimp only at h
          cases hs : gs.all fun k => sameEnt g.ent k.ent with
          | false => simp [hs] at h
          | true =>
            simp only [hs, if_true] at h
            cases hm : ((g :: gs).any fun f => decide (f.outputs > 1)) with
            | true => simp [hm] at h
            | false =>
              simp only [hm] at h
              cases h
              refine ⟨checkFeatures_ok.mp e, rfl, noMulti.mp hm, ?_⟩
              intro k hk
              rcases List.mem_cons.mp hk with rfl | hk
              · exact Spec.SeenAlike.rfl'
              · exact sameEnt_iff.mp (List.all_eq_true.mp hs k hk)
    · rintro ⟨hg, hu⟩
      rw [checkFeatures_ok.mpr hg]
      dsimp only
      rw [if_pos (List.all_eq_true.mpr fun k hk => sameEnt_iff.mpr (hu.together k (List.mem_cons_of_mem _ hk)))]
      dsimp only
      rw [noMulti.mpr hu.single]; rfl

theorem checkBases_nil {b : BList} : checkBases b ≠ .ok [] := by
  intro h
  cases b with
  | one a =>
    simp only [checkBases, checkFeatures] at h
    cases e : checkFeature a with
    | error x => rw [e] at h; cases h
    | ok g =>
      rw [e] at h
      dsimp only at h
      split at h <;> cases h
  | many l =>
    simp only [checkBases] at h
    cases e : checkFeatures l with
    | error x => rw [e] at h; cases h
    | ok gs =>
      rw [e] at h
      cases gs with
      | nil => cases h
      | cons g gs =>
        dsimp only at h
        cases hs : gs.all fun k => sameEnt g.ent k.ent with
        | false => simp [hs] at h
        | true =>
          simp only [hs, if_true] at h
          split at h <;> cases h

theorem inputsOk_iff {sub : String → String → Bool} {p : BPrim} {f : BFeat} {fs : List BFeat} :
    inputsOk sub p (f :: fs) = true ↔ TypesFit sub p (f :: fs) := by
  unfold inputsOk TypesFit
  simp only [List.isEmpty_cons, Bool.false_or]
  cases p.inputs with
  | none => simp
  | some alts =>
    simp only [List.any_eq_true, List.all_eq_true, Option.some.injEq, forall_eq']
    constructor
    · rintro ⟨t, ht, h⟩
      refine ⟨t, ht, fun i ty g h1 h2 => ?_⟩
      refine h (ty, g) (List.mem_of_getElem? (i := i) ?_)
      rw [List.getElem?_zip_eq_some]; exact ⟨h1, h2⟩
    · rintro ⟨t, ht, h⟩
      refine ⟨t, ht, fun tf htf => ?_⟩
      obtain ⟨i, hi⟩ := List.getElem?_of_mem htf
      obtain ⟨h1, h2⟩ := List.getElem?_zip_eq_some.mp hi
      exact h i _ _ h1 h2

theorem checkWhere_ok {child : String} {wh : Option BArg} {w : Option BFeat} :
    checkWhere child wh = .ok w ↔ WhereGiven child wh w := by
  cases wh with
  | none =>
    constructor
    · intro h; simp only [checkWhere, Except.ok.injEq] at h; subst h; exact .none
    · intro h; cases h; rfl
  | some a =>
    constructor
    · intro h
      simp only [checkWhere] at h
      cases e : checkFeature a with
      | error x => rw [e] at h; cases h
      | ok g =>
        rw [e] at h
        dsimp only at h
        split at h
        · next hid => cases h; exact .some (checkFeature_ok.mp e) hid
        · cases h
    · intro h
      cases h with
      | some h1 h2 => simp only [checkWhere, checkFeature_ok.mpr h1, if_pos h2]

theorem checkPrevious_ok {sub : String → String → Bool} {ent : BuildEnt} {prev : Option (Except PyErr Timedelta)}
    {td : Option Timedelta} : checkPrevious sub ent prev = .ok td ↔ WindowGiven sub ent prev td := by
  cases prev with
  | none =>
    constructor
    · intro h; simp only [checkPrevious, Except.ok.injEq] at h; subst h; exact .none
    · intro h; cases h; rfl
  | some t =>
    constructor
    · intro h
      simp only [checkPrevious] at h
      cases e : ent.timeIndex with
      | none => rw [e] at h; cases h
      | some ti =>
        rw [e] at h
        cases t with
        | error x => cases h
        | ok t =>
          dsimp only at h
          cases e2 : ent.vars.lookup ti with
          | none => rw [e2] at h; cases h
          | some ty =>
            rw [e2] at h
            dsimp only at h
            simp only [checkTimeColumn] at h
            cases hd : (sub ty "Datetime" || sub ty "DatetimeTimeIndex") with
            | true =>
              simp only [hd, if_true] at h
              cases h
              exact .some e e2 (by simpa using hd)
            | false =>
              simp only [hd, Bool.false_eq_true, if_false] at h
              cases ho : (sub ty "Ordinal" || sub ty "Numeric" || sub ty "TimeIndex") with
              | true => simp only [ho, if_true] at h; cases h
              | false => simp only [ho, Bool.false_eq_true, if_false] at h; cases h
    · intro h
      cases h with
      | some h1 h2 h3 =>
        simp only [checkPrevious, h1, h2, checkTimeColumn]
        rw [if_pos (by simpa using h3)]; rfl

theorem simple_self {rels : List Relationship} {a : String} {p : List Relationship} (h : SimpleChain rels a a p) : p = [] := by
  cases p with
  | nil => rfl
  | cons r p =>
    exfalso
    have hlast : ∀ (q : List Relationship) (x : String), q ≠ [] → Chain rels x a q → a ∈ q.map (·.parentE) := by
      intro q
      induction q with
      | nil => intro x hx; exact absurd rfl hx
      | cons s q ih =>
        intro x _ hc
        cases q with
        | nil => have := hc.2.2; simp only [Chain] at this; simp [this]
        | cons s' q' =>
          exact List.mem_cons_of_mem _ (ih s.parentE (by simp) hc.2.2)
    have h1 := hlast (r :: p) a (by simp) h.1
    have h2 := h.2
    unfold visited at h2
    exact (List.nodup_cons.mp h2).1 h1

theorem chain_nil_eq {rels : List Relationship} {a b : String} (h : SimpleChain rels a b []) : a = b := h.1

theorem handlePath_none {rels : List Relationship} (hn : rels.Nodup) {parent child : String} {out : RelPath × Bool} :
    handlePath rels parent child none = .ok out ↔
      ∃ c, OnlyChain rels child parent c ∧ out = (c.reverse.map fun r => (false, r), true) := by
  have hnd := nodup_findForwardPaths hn child parent
  have hm : ∀ p, p ∈ findForwardPaths rels child parent ↔ SimpleChain rels child parent p := fun p => mem_findForwardPaths
  simp only [handlePath, findBackwardPaths]
  match h : findForwardPaths rels child parent with
  | [] =>
    simp only [List.map_nil]
    constructor
    · intro h; cases h
    · rintro ⟨c, hc, _⟩
      have := (hm c).mpr hc.chain
      rw [h] at this; cases this
  | q :: rest =>
    rw [h] at hm hnd
    have hq := (hm q).mp List.mem_cons_self
    cases hrev : q.reverse with
    | nil =>
      have hq0 : q = [] := by simpa using congrArg List.reverse hrev
      subst hq0
      simp only [List.map_cons, List.reverse_nil]
      constructor
      · intro h; cases h
      · rintro ⟨c, hc, _⟩
        exact absurd (chain_nil_eq hq) hc.apart
    | cons r p =>
      simp only [List.map_cons, hrev]
      have hne : child ≠ parent := by
        rintro rfl
        have := simple_self hq
        subst this; cases hrev
      cases rest with
      | nil =>
        simp only [List.map_nil]
        constructor
        · intro h'
          cases h'
          exact ⟨q, ⟨hq, fun q' hq' => by simpa using (hm q').mpr hq', hne⟩, by rw [hrev]; rfl⟩
        · rintro ⟨c, hc, rfl⟩
          have := hc.only q hq
          subst this
          rw [hrev]; rfl
      | cons q2 rest =>
        have hq2 := (hm q2).mp (by simp)
        cases hrev2 : q2.reverse with
        | nil =>
          have hq0 : q2 = [] := by simpa using congrArg List.reverse hrev2
          subst hq0
          exact absurd (chain_nil_eq hq2) hne
        | cons r2 p2 =>
          simp only [List.map_cons, hrev2]
          constructor
          · intro h; cases h
          · rintro ⟨c, hc, _⟩
            have h1 := hc.only q hq
            have h2 := hc.only q2 hq2
            simp [h1, h2] at hnd

theorem handlePath_none_error {rels : List Relationship} {parent child : String} {e : PyErr}
    (h : handlePath rels parent child none = .error e) : e = .runtimeError := by
  simp only [handlePath] at h
  split at h
  · cases h; rfl
  · cases h; rfl
  · split at h <;> cases h; rfl

theorem handlePath_some {rels : List Relationship} {parent child : String} {path : RelPath} (hne : path ≠ [])
    {out : RelPath × Bool} :
    handlePath rels parent child (some path) = .ok out ↔
      EndsFit path parent child ∧ ∃ u, hasUniqueForwardPath rels child parent = .ok u ∧ out = (path, u) := by
  cases path with
  | nil => exact absurd rfl hne
  | cons s rest =>
    obtain ⟨fwd, r⟩ := s
    simp only [handlePath]
    have hl : ((fwd, r) :: rest).getLast? = some (((fwd, r) :: rest).getLast (by simp)) := List.getLast?_eq_some_getLast _
    constructor
    · intro h
      cases hb : (((fwd, r) :: rest).all fun s => !s.1) with
      | false => rw [hb] at h; cases h
      | true =>
        rw [hb] at h
        simp only [Bool.not_true, Bool.false_eq_true, if_false] at h
        split at h
        · cases h
        · next hp =>
          split at h
          · cases h
          · next hc =>
            cases hu : hasUniqueForwardPath rels child parent with
            | error x => rw [hu] at h; cases h
            | ok u =>
              rw [hu] at h
              cases h
              refine ⟨⟨?_, ⟨_, rfl, ?_⟩, ⟨_, hl, ?_⟩⟩, u, rfl, rfl⟩
              · intro s hs
                have := List.all_eq_true.mp hb s hs
                simpa using this
              · exact (Classical.not_not.mp hp).symm
              · exact (Classical.not_not.mp hc).symm
    · rintro ⟨⟨h1, ⟨s, h2, h3⟩, ⟨s', h4, h5⟩⟩, u, hu, rfl⟩
      have hb : (((fwd, r) :: rest).all fun s => !s.1) = true := List.all_eq_true.mpr fun s hs => by simp [h1 s hs]
      rw [hb]
      simp only [Bool.not_true, Bool.false_eq_true, if_false]
      cases h2
      rw [hl] at h4
      cases h4
      rw [if_neg (not_not_intro h3.symm), if_neg (not_not_intro h5.symm), hu]

theorem handAgg_ok {sub : String → String → Bool} {rels : List Relationship} {bases : BList} {parent : String} {p : BPrim}
    {path : Option RelPath} {prev : Option (Except PyErr Timedelta)} {wh : Option BArg} {out : NewFeat} :
    handAgg sub rels bases parent p path prev wh = .ok out ↔
      ∃ fs f pu w td, GivenBases bases fs ∧ Usable fs f ∧ handlePath rels parent f.ent.id path = .ok pu ∧
        WhereGiven f.ent.id wh w ∧ WindowGiven sub f.ent prev td ∧ TypesFit sub p fs ∧ out = ⟨.agg pu.1 pu.2 td, parent, fs, w⟩ := by
  simp only [handAgg]
  constructor
  · intro h
    cases hb : checkBases bases with
    | error e => rw [hb] at h; cases h
    | ok fs =>
      cases fs with
      | nil => exact absurd hb checkBases_nil
      | cons f fs =>
        obtain ⟨hg, hu⟩ := checkBases_ok.mp hb
        rw [hb] at h
        dsimp only at h
        cases hp : handlePath rels parent f.ent.id path with
        | error e => rw [hp] at h; cases h
        | ok pu =>
          rw [hp] at h
          obtain ⟨p', u⟩ := pu
          dsimp only at h
          cases hw : checkWhere f.ent.id wh with
          | error e => rw [hw] at h; cases h
          | ok w =>
            rw [hw] at h
            dsimp only at h
            cases ht : checkPrevious sub f.ent prev with
            | error e => rw [ht] at h; cases h
            | ok td =>
              rw [ht] at h
              dsimp only at h
              split at h
              · next hi =>
                cases h
                exact ⟨_, f, (p', u), w, td, hg, hu, hp, checkWhere_ok.mp hw, checkPrevious_ok.mp ht, inputsOk_iff.mp hi, rfl⟩
              · cases h
  · rintro ⟨fs, f, ⟨p', u⟩, w, td, hg, hu, hp, hw, ht, hi, rfl⟩
    cases fs with
    | nil => cases hu.first
    | cons g fs =>
      cases hu.first
      simp only [checkBases_ok.mpr ⟨hg, hu⟩, hp, checkWhere_ok.mpr hw, checkPrevious_ok.mpr ht, inputsOk_iff.mpr hi, if_true]

theorem handTrans_ok {sub : String → String → Bool} {bases : BList} {p : BPrim} {out : NewFeat} :
    handTrans sub bases p = .ok out ↔
      ∃ fs f, GivenBases bases fs ∧ Usable fs f ∧ TypesFit sub p fs ∧ out = ⟨.trans, f.ent.id, fs, none⟩ := by
  simp only [handTrans]
  constructor
  · intro h
    cases hb : checkBases bases with
    | error e => rw [hb] at h; cases h
    | ok fs =>
      cases fs with
      | nil => exact absurd hb checkBases_nil
      | cons f fs =>
        obtain ⟨hg, hu⟩ := checkBases_ok.mp hb
        rw [hb] at h
        dsimp only at h
        split at h
        · next hi => cases h; exact ⟨_, f, hg, hu, inputsOk_iff.mp hi, rfl⟩
        · cases h
  · rintro ⟨fs, f, hg, hu, hi, rfl⟩
    cases fs with
    | nil => cases hu.first
    | cons g fs =>
      cases hu.first
      simp only [checkBases_ok.mpr ⟨hg, hu⟩, inputsOk_iff.mpr hi, if_true]

theorem handRel_none {rels : List Relationship} (hn : rels.Nodup) {parent child : String} {r : Relationship} :
    handleRelationship rels parent child none = .ok r ↔
      (r ∈ rels ∧ r.childE = child ∧ r.parentE = parent) ∧
        ∀ s ∈ rels, s.childE = child → s.parentE = parent → s = r := by
  simp only [handleRelationship]
  have hmem : ∀ s, s ∈ ((getForwardRelationships rels child).filter fun r => r.parentE == parent) ↔
      s ∈ rels ∧ s.childE = child ∧ s.parentE = parent := by
    intro s
    simp only [List.mem_filter, mem_getForward, beq_iff_eq, and_assoc]
  have hnd : ((getForwardRelationships rels child).filter fun r => r.parentE == parent).Nodup :=
    List.Pairwise.filter _ (by unfold getForwardRelationships; exact List.Pairwise.filter _ hn)
  generalize ((getForwardRelationships rels child).filter fun r => r.parentE == parent) = l at hmem hnd
  match l, hmem, hnd with
  | [], hmem, _ =>
    constructor
    · intro h; cases h
    · rintro ⟨h, _⟩; exact absurd ((hmem r).mpr h) (by simp)
  | [s], hmem, _ =>
    constructor
    · intro h
      cases h
      exact ⟨(hmem _).mp (by simp), fun t h1 h2 h3 => by simpa using (hmem t).mpr ⟨h1, h2, h3⟩⟩
    · rintro ⟨h, _⟩
      have := (hmem r).mpr h
      simp only [List.mem_singleton] at this
      rw [this]
  | s :: t :: l, hmem, hnd =>
    constructor
    · intro h; cases h
    · rintro ⟨_, h⟩
      have h1 := (hmem s).mp (by simp)
      have h2 := (hmem t).mp (by simp)
      have e1 := h s h1.1 h1.2.1 h1.2.2
      have e2 := h t h2.1 h2.2.1 h2.2.2
      simp [e1, e2] at hnd

theorem pathDown_of_chain {rels : List Relationship} {c : List Relationship} (hne : c ≠ []) {a b : String}
    (h : Chain rels a b c) : PathDown b c.reverse a := by
  have hsnoc : ∀ {x y : String} {q : List Relationship} (r : Relationship), PathDown x q r.parentE → PathDown x (q ++ [r]) r.childE := by
    intro x y q r hq
    generalize hz : r.parentE = z at hq
    induction hq with
    | last s => exact .step s (by rw [← hz]; exact .last r)
    | step s _ ih => exact .step s (ih hz)
  induction c generalizing a with
  | nil => exact absurd rfl hne
  | cons r c ih =>
    obtain ⟨_, rfl, hc⟩ := h
    rw [List.reverse_cons]
    cases c with
    | nil =>
      simp only [Chain] at hc
      subst hc
      exact .last r
    | cons s c => exact hsnoc (y := b) r (ih (by simp) hc)

theorem pathDown_head {a e : String} {r : Relationship} {l : List Relationship} (h : PathDown a (r :: l) e) : a = r.parentE := by
  cases h <;> rfl

theorem pathDown_linked {a e : String} {r s : Relationship} {l : List Relationship} (h : PathDown a (r :: s :: l) e) :
    r.childE = s.parentE := by
  cases h with
  | step _ h => exact pathDown_head h

end FT
