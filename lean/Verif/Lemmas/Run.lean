import Verif.Lemmas.NodeCalc
/-! # The result of a run -/
namespace FT
open Spec

theorem dedup_eq_self {α : Type} [DecidableEq α] (l : List α) : dedup l = l ↔ l.Nodup := by
  constructor
  · intro h; rw [← h]; exact nodup_dedup l
  · intro h
    induction l with
    | nil => rfl
    | cons a l ih =>
      rw [List.nodup_cons] at h
      simp only [dedup, ih h.2]
      rw [List.filter_eq_self.mpr]
      intro b hb
      simp only [ne_eq, decide_not, Bool.not_eq_true', decide_eq_false_iff_not]
      rintro rfl; exact h.1 hb

section
variable {env : Env} {targets : List Feat} {G : Given} {e : String} (R : RegularFor env targets G e)
include R

omit R in
/-- What `collectRows` makes of a right frame. -/
theorem collect_given_ok {ids : List Val} {df : Table}
    (hids : ∀ x, x ∈ df.rows.map (fun r => r (indexOf env e)) ↔ x ∈ (worldOf env).ids e ∧ x ∈ ids)
    (hval : ∀ f ∈ targets, (∀ n ∈ f.names, n ∈ df.cols) ∧ ∀ r ∈ df.rows, f.names.map r = meaningAt (worldOf env) G [] f (r (indexOf env e))) :
    collectRows (indexOf env e) targets ids df =
      if ∀ i ∈ ids, i ∉ (worldOf env).ids e then .ok (ids.map fun i => (i, answerAt (worldOf env) G e targets i))
      else if (ids.filter fun i => i ∉ (worldOf env).ids e).Nodup then .ok ((dedup ids).map fun i => (i, answerAt (worldOf env) G e targets i))
      else .error .valueError := by
  have hans : ∀ i, i ∉ (worldOf env).ids e → answerAt (worldOf env) G e targets i = defaultRow targets := by
    intro i hi; simp only [answerAt, if_neg hi, defaultRow]
  unfold collectRows
  by_cases hemp : df.rows = []
  · have hall : ∀ i ∈ ids, i ∉ (worldOf env).ids e := by
      intro i hi hv
      have := (hids i).mpr ⟨hv, hi⟩
      rw [hemp] at this; cases this
    rw [if_pos (by simp [hemp]), if_pos hall]
    congr 1
    apply List.map_congr_left
    intro i hi
    rw [hans i (hall i hi)]
  · have hne : ¬ ∀ i ∈ ids, i ∉ (worldOf env).ids e := by
      intro hall
      obtain ⟨r, hr⟩ := List.exists_mem_of_ne_nil _ hemp
      have := (hids _).mp (List.mem_map.mpr ⟨r, hr, rfl⟩)
      exact hall _ this.2 this.1
    rw [if_neg (by simpa using hemp), if_neg hne]
    have hmiss : (ids.filter fun i => !(df.rows.any fun r => r (indexOf env e) = i)) = ids.filter fun i => i ∉ (worldOf env).ids e := by
      apply List.filter_congr
      intro i hi
      rw [Bool.eq_iff_iff]
      simp only [Bool.not_eq_true', List.any_eq_false, decide_eq_true_eq]
      constructor
      · intro h hv
        obtain ⟨r, hr, he⟩ := List.mem_map.mp ((hids i).mpr ⟨hv, hi⟩)
        exact h r hr he
      · intro h r hr he
        exact h ((hids i).mp (List.mem_map.mpr ⟨r, hr, he⟩)).1
    simp only [hmiss]
    have hcols : hasCols df (targets.flatMap Feat.names) = true := by
      simp only [hasCols, List.all_eq_true, List.mem_flatMap, List.contains_iff_mem]
      rintro c ⟨f, hf, hc⟩
      exact (hval f hf).1 c hc
    simp only [hcols, if_true]
    have hnd : dedup (ids.filter fun i => i ∉ (worldOf env).ids e) ≠ (ids.filter fun i => i ∉ (worldOf env).ids e) ↔
        ¬ (ids.filter fun i => i ∉ (worldOf env).ids e).Nodup := by
      rw [ne_eq, dedup_eq_self]
    by_cases hn : (ids.filter fun i => i ∉ (worldOf env).ids e).Nodup
    · rw [if_neg (fun h => (hnd.mp h) hn), if_pos hn]
      congr 1
      apply List.map_congr_left
      intro i hi
      rw [mem_dedup] at hi
      cases hf : df.rows.find? fun r => r (indexOf env e) = i with
      | some r =>
        have hr := List.mem_of_find?_eq_some hf
        have hri : r (indexOf env e) = i := by simpa using List.find?_some hf
        have hv := ((hids i).mp (List.mem_map.mpr ⟨r, hr, hri⟩)).1
        simp only [answerAt, if_pos hv, Prod.mk.injEq, true_and]
        rw [List.map_flatMap]
        apply flatMap_congr'
        intro f hf
        rw [(hval f hf).2 r hr, hri]
      | none =>
        have : i ∉ (worldOf env).ids e := by
          intro hv
          obtain ⟨r, hr, he⟩ := List.mem_map.mp ((hids i).mpr ⟨hv, hi⟩)
          have := (List.find?_eq_none.mp hf) r hr
          simp [he] at this
        rw [hans i this]
    · rw [if_pos (hnd.mpr hn), if_neg hn]

/-- The result of a run. -/
theorem run_given_ok (ids : List Val) (pre : PTrie) (hne : ids ≠ [])
    (hpre : ∀ q, PreAt env targets G e ids q (Trie.nodeAt none q pre).value) :
    runCalc env targets G.trie pre e ids =
      if ∀ i ∈ ids, i ∉ (worldOf env).ids e then .ok (ids.map fun i => (i, answerAt (worldOf env) G e targets i))
      else if (ids.filter fun i => i ∉ (worldOf env).ids e).Nodup then .ok ((dedup ids).map fun i => (i, answerAt (worldOf env) G e targets i))
      else .error .valueError := by
  obtain ⟨ent, hent, hidx⟩ := R.entityOk.get
  have hin : NodeIn env targets G e ids [] (indexOf env e) ids none :=
    ⟨trivial, by exact R.entityOk.indexKey, fun _ => ⟨rfl, fun x hx => .start hx⟩, linksAt_nil env targets G⟩
  obtain ⟨dT, fT, hc, ho⟩ := calcNode_ok R ids (rootTrie targets G) pre [] (indexOf env e) ids none rfl (WF_buildTrie _ _) hpre hin
  obtain ⟨df, hdf, hsub, B, hB, hfr⟩ := ho.frames [] trivial
  have hval : dT.value = some df := by
    obtain ⟨x, cs⟩ := dT
    exact hdf
  have hask := ho.asked
  have hcalc : calcNode env (lookupFeature (featuresByName targets)) (buildTrie targets G.trie) pre e ent.index ids none = .ok (dT, fT) := by
    rw [← hidx]; exact hc
  unfold runCalc
  rw [if_neg (by simpa using hne)]
  simp only [Env.getEnt, hent, hcalc, hval]
  rw [← hidx]
  refine collect_given_ok ?_ ?_
  · intro x
    have hE : pathEnd e [] = e := rfl
    simp only [idsAt, hdf, Option.map_some, Option.getD_some, hE] at hask
    simp only [List.append_nil, hE] at hsub
    have h2 : pathEnd e [] = e := rfl
    obtain ⟨_, h3, h4⟩ := hask
    constructor
    · intro hx
      have hv := hsub.subset hx
      refine ⟨hv, ?_⟩
      have := h4 x hx
      rw [cell_index R.entityOk R.window hv] at this
      rcases this with h | h
      · exact h
      · subst h; exact absurd hv (visible_ids R.entityOk R.window).2
    · rintro ⟨hv, hx⟩
      refine h3 x hv ?_ ?_
      · rw [cell_index R.entityOk R.window hv]; exact hx
      · rw [cell_index R.entityOk R.window hv]
        rintro rfl
        exact (visible_ids R.entityOk R.window).2 hv
  · intro f hf
    exact hfr.done f (.inl ⟨_, .target hf (by rw [R.targetsComputed]; simp)⟩)


/-- A visible instance has a value for every output. -/
theorem meaningAt_length (pre : PTrie) (f : Feat) (hf : f ∈ targets) (id : Val) (hv : id ∈ (worldOf env).ids e)
    (hpre : ∀ q, PreAt env targets G e [id] q (Trie.nodeAt none q pre).value) :
    (meaningAt (worldOf env) G [] f id).length = f.names.length := by
  have hin : NodeIn env targets G e [id] [] (indexOf env e) [id] none :=
    ⟨trivial, by exact R.entityOk.indexKey, fun _ => ⟨rfl, fun x hx => .start hx⟩, linksAt_nil env targets G⟩
  obtain ⟨dT, fT, hc, ho⟩ := calcNode_ok R [id] (rootTrie targets G) pre [] (indexOf env e) [id] none rfl (WF_buildTrie _ _) hpre hin
  obtain ⟨df, hdf, hsub, B, hB, hfr⟩ := ho.frames [] trivial
  have hask := ho.asked
  have hE : pathEnd e [] = e := rfl
  simp only [idsAt, hdf, Option.map_some, Option.getD_some, hE] at hask
  have hx := hask.2.1 id hv (by rw [cell_index R.entityOk R.window hv]; simp) (by
    rw [cell_index R.entityOk R.window hv]
    rintro rfl
    exact (visible_ids R.entityOk R.window).2 hv)
  obtain ⟨r, hr, hri⟩ := List.mem_map.mp hx
  have := (hfr.done f (.inl ⟨_, .target hf (by rw [R.targetsComputed]; simp)⟩)).2 r hr
  have hri' : r (indexOf env (pathEnd e ([] ++ []))) = id := hri
  rw [hri', List.append_nil] at this
  rw [← this, List.length_map]

end

/-! ## Nothing is given -/

theorem given_none_names : Given.none.names = noHidden := hiddenBy_new

mutual
theorem meaningAt_none (w : World) : ∀ (f : Feat) (p : List Edge), meaningAt w Given.none p f = meaning w f
  | .mk i bs wh, p => by
    rw [meaningAt, meaning]
    split
    · rw [meaningsAt_none w bs, meaningsAt_none w wh]
    · rw [given_none_names, if_neg (by simp [noHidden]), meaningsAt_none w bs, meaningsAt_none w wh]
theorem meaningsAt_none (w : World) : ∀ (fs : List Feat) (p : List Edge), meaningsAt w Given.none p fs = meanings w fs
  | [], p => by rw [meaningsAt, meanings]
  | f :: fs, p => by rw [meaningsAt, meanings, meaningAt_none w f, meaningsAt_none w fs]
end

theorem answerAt_none (w : World) (e : String) (targets : List Feat) (id : Val) : answerAt w Given.none e targets id = answer w e targets id := by
  simp only [answerAt, answer, meaningAt_none]

theorem not_givenAt_none {targets : List Feat} {p : List Edge} {f : Feat} : ¬ GivenAt targets Given.none.names p f := by
  intro h
  have := h.hidden
  rw [given_none_names] at this
  cases this

theorem atNode_none {targets : List Feat} {p : List Edge} {f : Feat} :
    AtNode targets Given.none.names p f ↔ ∃ full, Planned targets noHidden p f full := by
  rw [AtNode, given_none_names]
  constructor
  · rintro (h | h)
    · exact h
    · rw [← given_none_names] at h; exact absurd h not_givenAt_none
  · exact .inl

theorem preAt_none (env : Env) (targets : List Feat) (e : String) (ids : List Val) (q : List Edge) :
    PreAt env targets Given.none e ids q (Trie.nodeAt none q (Trie.new none : PTrie)).value := by
  have : (Trie.nodeAt none q (Trie.new none : PTrie)).value = none := valueAt_new none q
  rw [this]
  intro f
  exact not_givenAt_none

theorem Spec.Regular.given {env : Env} {targets : List Feat} {e : String} (R : Regular env targets e) :
    RegularFor env targets Given.none e where
  targetEntity := R.targetEntity
  noSlice := R.noSlice
  entityOk := R.entityOk
  window := R.window
  names := R.names
  wf := R.wf
  notKey p f h := by
    obtain ⟨full, h⟩ := atNode_none.mp h
    exact R.notKey p f full h
  disjoint p f g hf hg := by
    obtain ⟨_, hf⟩ := atNode_none.mp hf
    obtain ⟨_, hg⟩ := atNode_none.mp hg
    exact R.disjoint p f g _ _ hf hg
  linkNotKey p q f hf := by
    obtain ⟨_, hf⟩ := atNode_none.mp hf
    exact R.linkNotKey p q f _ hf
  linkClash p f full hf := by
    rw [given_none_names] at hf
    simp only [meaningAt_none]
    exact R.linkClash p f full hf
  paths := by rw [given_none_names]; exact R.paths
  directBases := by rw [given_none_names]; exact R.directBases
  givenUp _ _ h := absurd h not_givenAt_none
  givenKind _ _ h := absurd h not_givenAt_none
  targetsComputed := by rw [given_none_names]; rfl

section
variable {env : Env} {targets : List Feat} {e : String} (R : Regular env targets e)
include R

/-- The result of a run. -/
theorem run_ok (ids : List Val) (hne : ids ≠ []) :
    runCalc env targets (Trie.new []) (Trie.new none) e ids =
      if ∀ i ∈ ids, i ∉ (worldOf env).ids e then .ok (ids.map fun i => (i, answer (worldOf env) e targets i))
      else if (ids.filter fun i => i ∉ (worldOf env).ids e).Nodup then .ok ((dedup ids).map fun i => (i, answer (worldOf env) e targets i))
      else .error .valueError := by
  have := run_given_ok R.given ids (Trie.new none) hne (preAt_none env targets e ids)
  simp only [answerAt_none] at this
  exact this

/-- A visible instance has a value for every output. -/
theorem meaning_length (f : Feat) (hf : f ∈ targets) (id : Val) (hv : id ∈ (worldOf env).ids e) :
    (meaning (worldOf env) f id).length = f.names.length := by
  have := meaningAt_length R.given (Trie.new none) f hf id hv (preAt_none env targets e [id])
  rwa [meaningAt_none] at this
end
end FT
