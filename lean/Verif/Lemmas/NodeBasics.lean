import Verif.Lemmas.World
import Verif.Lemmas.PlanNodes
import Verif.Props.FeatureGroup
/-! # Facts about planned features -/
namespace FT
open Spec

theorem Needs.trans_dep {f g d : Feat} (h : Needs f g) (hd : d ∈ g.bases ∨ d ∈ g.wh) : Needs f d := by
  rcases h with rfl | h
  · exact .inr (.direct hd (by simp))
  · right
    induction h with
    | direct hm hn => exact .deep hm hn (.direct hd (by simp))
    | deep hm hn _ ih => exact .deep hm hn (ih hd)

theorem neededBy_dep {fs : List Feat} {g d : Feat} (h : NeededBy fs g) (hd : d ∈ g.bases ∨ d ∈ g.wh) : NeededBy fs d := by
  obtain ⟨f, hf, hn⟩ := h
  exact ⟨f, hf, Needs.trans_dep hn hd⟩

theorem unslice_cases {d b : Feat} (h : unslice d = some b) :
    ((∀ n, d.kind ≠ .slice n) ∧ b = d) ∨ ∃ n, d.kind = .slice n ∧ d.bases.head? = some b := by
  unfold unslice at h
  split at h
  · rename_i n hk; exact .inr ⟨n, hk, h⟩
  · rename_i hk; cases h; exact .inl ⟨fun n hn => hk n hn, rfl⟩

theorem neededBy_unslice {fs : List Feat} {d b : Feat} (h : NeededBy fs d) (hb : unslice d = some b) : NeededBy fs b := by
  rcases unslice_cases hb with ⟨_, rfl⟩ | ⟨n, _, hh⟩
  · exact h
  · exact neededBy_dep h (.inl (List.mem_of_head? hh))

theorem Spec.Planned.neededBy {targets hidden p f full} (h : Planned targets hidden p f full) : NeededBy targets f := by
  induction h with
  | target hf _ => exact ⟨_, hf, .inl rfl⟩
  | dep _ hd he _ ih => exact neededBy_unslice (neededBy_dep ih hd) he

/-- A slice names a column of the feature it is a slice of. -/
theorem slice_wf {env : Env} {d : Feat} {n : Nat} (h : WellFormed env d) (hk : d.kind = .slice n) :
    ∃ b, d.bases = [b] ∧ d.names = [d.name] ∧ b.entity = d.entity ∧ b.names[n]? = some d.name ∧ ∀ m, b.kind ≠ .slice m := by
  obtain ⟨_, _, _, h⟩ := h
  simp only [hk] at h
  obtain ⟨h1, _, b, hb, he, hn, hs⟩ := h
  exact ⟨b, hb, h1, he, hn, hs⟩

theorem unslice_wf {env : Env} {d b : Feat} (h : WellFormed env d) (hb : unslice d = some b) :
    b.entity = d.entity ∧ ∀ n, b.kind ≠ .slice n := by
  rcases unslice_cases hb with ⟨h1, rfl⟩ | ⟨n, hk, hh⟩
  · exact ⟨rfl, h1⟩
  · obtain ⟨b', hb', _, he, _, hs⟩ := slice_wf h hk
    rw [hb'] at hh; cases hh
    exact ⟨he, hs⟩

theorem unslice_some {env : Env} {d : Feat} (h : WellFormed env d) : ∃ b, unslice d = some b := by
  by_cases hk : ∃ n, d.kind = .slice n
  · obtain ⟨n, hk⟩ := hk
    obtain ⟨b, hb, _⟩ := slice_wf h hk
    exact ⟨b, by simp [unslice, hk, hb]⟩
  · refine ⟨d, ?_⟩
    unfold unslice
    split
    · rename_i n hn; exact absurd ⟨n, hn⟩ hk
    · rfl

theorem pathEnd_append (e : String) (p q : List Edge) (h : q ≠ []) : pathEnd e (p ++ q) = pathEnd e q := by
  unfold pathEnd
  rw [List.getLast?_append]
  cases hq : q.getLast? with
  | none => exact absurd (List.getLast?_eq_none_iff.mp hq) h
  | some x => rfl

theorem pathEnd_cons (e : String) (a : Edge) (q : List Edge) : pathEnd e (a :: q) = pathEnd (pathEnd e [a]) q := by
  unfold pathEnd
  cases q with
  | nil => rfl
  | cons b q =>
    rw [List.getLast?_cons_cons]
    cases hq : (b :: q).getLast? with
    | none => simp at hq
    | some x => obtain ⟨b, r⟩ := x; cases b <;> rfl

theorem Spec.PathDown.ne_nil {a path b} (h : PathDown a path b) : path ≠ [] := by cases h <;> simp

theorem Spec.PathDown.last_child {a path b} (h : PathDown a path b) : path.getLast?.map Relationship.childE = some b := by
  induction h with
  | last r => rfl
  | step r h ih =>
    rename_i rs e
    cases rs with
    | nil => exact absurd rfl h.ne_nil
    | cons x rs => rw [List.getLast?_cons_cons]; exact ih

theorem Spec.PathDown.pathEnd {a path b} (e : String) (h : PathDown a path b) :
    Spec.pathEnd e (path.map fun r => ((false, r) : Edge)) = b := by
  unfold Spec.pathEnd
  rw [List.getLast?_map]
  have := h.last_child
  cases hl : path.getLast? with
  | none => rw [hl] at this; cases this
  | some r => rw [hl] at this; simpa using this

theorem path_identity {f : Feat} {v} (h : f.kind = .identity v) : f.path = [] := by simp [Feat.path, h, Kind.path]
theorem path_trans {f : Feat} {v} (h : f.kind = .trans v) : f.path = [] := by simp [Feat.path, h, Kind.path]
theorem path_groupby {f : Feat} {v} (h : f.kind = .groupby v) : f.path = [] := by simp [Feat.path, h, Kind.path]
theorem path_direct {f : Feat} {r} (h : f.kind = .direct r) : f.path = [(true, r)] := by simp [Feat.path, h, Kind.path]
theorem path_agg {f : Feat} {p a b c} (h : f.kind = .agg p a b c) : f.path = p.map fun r => (false, r) := by
  simp [Feat.path, h, Kind.path]

theorem Spec.Planned.not_hidden {targets hidden p f full} (h : Planned targets hidden p f full) : f.uniqueName ∉ hidden p := by
  cases h with
  | target _ h => exact h
  | dep _ _ _ h => exact h

theorem Spec.GivenAt.hidden {targets hidden p f} (h : GivenAt targets hidden p f) : f.uniqueName ∈ hidden p := by
  cases h with
  | dep _ _ _ h => exact h

theorem Spec.GivenAt.neededBy {targets hidden p f} (h : GivenAt targets hidden p f) : NeededBy targets f := by
  cases h with
  | dep hp hd he _ => exact neededBy_unslice (neededBy_dep hp.neededBy hd) he

theorem Spec.AtNode.neededBy {targets hidden p f} (h : AtNode targets hidden p f) : NeededBy targets f := by
  rcases h with ⟨_, h⟩ | h
  · exact h.neededBy
  · exact h.neededBy

theorem planned_not_slice {env targets G e p f full} (R : RegularFor env targets G e) (h : Planned targets G.names p f full) :
    ∀ n, f.kind ≠ .slice n := by
  cases h with
  | target hf _ => exact R.noSlice _ hf
  | dep hp hd he _ => exact (unslice_wf (R.wf _ (neededBy_dep hp.neededBy hd)) he).2

/-- The entity of a dependency of a planned feature. -/
theorem dep_entity {env targets G e p f full d b} (R : RegularFor env targets G e) (hp : Planned targets G.names p f full)
    (hd : d ∈ f.bases ∨ d ∈ f.wh) (he : unslice d = some b) (ih : f.entity = pathEnd e p) : b.entity = pathEnd e (p ++ f.path) := by
    have hw := R.wf _ hp.neededBy
    rw [(unslice_wf (R.wf _ (neededBy_dep hp.neededBy hd)) he).1]
    have hns := planned_not_slice R hp
    obtain ⟨_, _, _, hw⟩ := hw
    cases hk : f.kind with
    | identity v =>
      simp only [hk] at hw
      rw [hw.2.2.1, hw.2.2.2.1] at hd
      rcases hd with h | h <;> cases h
    | slice n => exact absurd hk (hns n)
    | direct r =>
      simp only [hk] at hw
      obtain ⟨_, _, hwh, b, hb, hbe, _⟩ := hw
      rw [hwh, hb] at hd
      rcases hd with h | h
      · simp at h; subst h
        rw [path_direct hk, pathEnd_append _ _ _ (by simp)]
        exact hbe
      · cases h
    | agg path prim prev u =>
      simp only [hk] at hw
      obtain ⟨_, _, _, _, ⟨ce, hpd, hde⟩, _⟩ := hw
      rw [path_agg hk, pathEnd_append _ _ _ (by simpa using hpd.ne_nil), hpd.pathEnd]
      exact (hde d hd).1
    | trans prim =>
      simp only [hk] at hw
      obtain ⟨_, hwh, hde, _⟩ := hw
      rw [hwh] at hd
      rcases hd with h | h
      · rw [path_trans hk, List.append_nil, (hde d h).1]; exact ih
      · cases h
    | groupby prim =>
      simp only [hk] at hw
      obtain ⟨_, hwh, hde, _⟩ := hw
      rw [hwh] at hd
      rcases hd with h | h
      · rw [path_groupby hk, List.append_nil, (hde d h).1]; exact ih
      · cases h

theorem planned_entity {env targets G e p f full} (R : RegularFor env targets G e) (h : Planned targets G.names p f full) :
    f.entity = pathEnd e p := by
  induction h with
  | target hf _ => exact R.targetEntity _ hf
  | dep hp hd he _ ih => exact dep_entity R hp hd he ih

theorem atNode_entity {env targets G e p f} (R : RegularFor env targets G e) (h : AtNode targets G.names p f) :
    f.entity = pathEnd e p := by
  rcases h with ⟨_, h⟩ | h
  · exact planned_entity R h
  · cases h with
    | dep hp hd he _ => exact dep_entity R hp hd he (planned_entity R hp)

theorem given_not_slice {env targets G e p f} (R : RegularFor env targets G e) (h : GivenAt targets G.names p f) :
    ∀ n, f.kind ≠ .slice n := by
  cases h with
  | dep hp hd he _ => exact (unslice_wf (R.wf _ (neededBy_dep hp.neededBy hd)) he).2

theorem nil_hidden (p : List Edge) : hiddenBy (Trie.new []) p = [] := valueAt_new [] p

theorem hiddenBy_new : hiddenBy (Trie.new []) = noHidden := funext nil_hidden

/-- A base feature is planned or given. -/
theorem planned_dep {targets hidden p f full d b} (h : Planned targets hidden p f full) (hd : d ∈ f.bases ∨ d ∈ f.wh)
    (hb : unslice d = some b) : Planned targets hidden (p ++ f.path) b (full || b.usesFull) ∨ GivenAt targets hidden (p ++ f.path) b := by
  by_cases hh : b.uniqueName ∈ hidden (p ++ f.path)
  · exact .inr (.dep h hd hb hh)
  · exact .inl (.dep h hd hb hh)

theorem atNode_dep {targets hidden p f full d b} (h : Planned targets hidden p f full) (hd : d ∈ f.bases ∨ d ∈ f.wh)
    (hb : unslice d = some b) : AtNode targets hidden (p ++ f.path) b := by
  rcases planned_dep h hd hb with h | h
  · exact .inl ⟨_, h⟩
  · exact .inr h

theorem planned_full_of_usesFull {targets hidden p f full} (h : Planned targets hidden p f full) (hu : f.usesFull = true) : full = true := by
  cases h with
  | target _ _ => exact hu
  | dep _ _ _ _ => simp [hu]

theorem meaningsAt_eq_map (w : World) (G : Given) (p : List Edge) (fs : List Feat) : meaningsAt w G p fs = fs.map (meaningAt w G p) := by
  induction fs with
  | nil => rw [meaningsAt]; rfl
  | cons f fs ih => rw [meaningsAt, ih]; rfl

theorem meaningAt_slice (w : World) (G : Given) (p : List Edge) {f : Feat} {n : Nat} (h : f.kind = .slice n) :
    meaningAt w G p f = meaningStep w f.info (f.bases.map (meaningAt w G p)) (f.wh.map (meaningAt w G p)) := by
  obtain ⟨i, bs, wh⟩ := f
  have h' : i.kind = .slice n := h
  rw [meaningAt]
  simp only [h', meaningsAt_eq_map]
  rfl

theorem meaningAt_given (w : World) (G : Given) {p : List Edge} {f : Feat} (h : ∀ n, f.kind ≠ .slice n)
    (hg : f.uniqueName ∈ G.names p) : meaningAt w G p f = G.value f := by
  obtain ⟨i, bs, wh⟩ := f
  rw [meaningAt]
  split
  · rename_i n hk; exact absurd hk (h n)
  · rw [if_pos hg]

theorem meaningAt_computed (w : World) (G : Given) {p : List Edge} {f : Feat} (h : ∀ n, f.kind ≠ .slice n)
    (hg : f.uniqueName ∉ G.names p) : meaningAt w G p f =
      meaningStep w f.info (f.bases.map (meaningAt w G (p ++ f.path))) (f.wh.map (meaningAt w G (p ++ f.path))) := by
  obtain ⟨i, bs, wh⟩ := f
  rw [meaningAt]
  split
  · rename_i n hk; exact absurd hk (h n)
  · have hp : (Feat.mk i bs wh).path = i.kind.path := by
      unfold Feat.path
      split
      · rename_i n _ _ hk _; exact absurd hk (h n)
      · rfl
    rw [if_neg hg, meaningsAt_eq_map, meaningsAt_eq_map, hp]
    rfl

theorem meaningAt_planned {env targets G e p f full} (R : RegularFor env targets G e) (h : Planned targets G.names p f full) (w : World) :
    meaningAt w G p f = meaningStep w f.info (f.bases.map (meaningAt w G (p ++ f.path))) (f.wh.map (meaningAt w G (p ++ f.path))) :=
  meaningAt_computed w G (planned_not_slice R h) h.not_hidden

/-- What it takes for a dependency's column to be right in a frame. -/
theorem dep_column {env : Env} {G : Given} {p : List Edge} {idx : String} {t : Table} {d b : Feat} (hw : WellFormed env d) (hs : d.names = [d.name])
    (hb : unslice d = some b) (hc : ∀ n ∈ b.names, n ∈ t.cols)
    (hr : ∀ r ∈ t.rows, b.names.map r = meaningAt (worldOf env) G p b (r idx)) :
    d.name ∈ t.cols ∧ ∀ r ∈ t.rows, r d.name = one (meaningAt (worldOf env) G p d) (r idx) := by
  rcases unslice_cases hb with ⟨_, rfl⟩ | ⟨n, hk, hh⟩
  · refine ⟨hc _ (by rw [hs]; simp), fun r hr' => ?_⟩
    have := hr r hr'
    rw [hs] at this
    simp [one, ← this]
  · obtain ⟨b', hb', _, _, hn, _⟩ := slice_wf hw hk
    rw [hb'] at hh; cases hh
    refine ⟨hc _ (List.mem_of_getElem? hn), fun r hr' => ?_⟩
    have := hr r hr'
    have hk' : d.info.kind = .slice n := hk
    simp only [one, meaningAt_slice (worldOf env) G p hk, meaningStep, hk', hb', List.map_cons, List.headD_cons]
    rw [← this, List.getD_eq_getElem?_getD, List.getElem?_map, hn]
    rfl

/-- The same for the columns of a direct feature's base. -/
theorem dep_columns {env : Env} {G : Given} {p : List Edge} {idx : String} {t : Table} {d b : Feat} (hw : WellFormed env d)
    (hb : unslice d = some b) (hc : ∀ n ∈ b.names, n ∈ t.cols)
    (hr : ∀ r ∈ t.rows, b.names.map r = meaningAt (worldOf env) G p b (r idx)) :
    (∀ n ∈ d.names, n ∈ t.cols) ∧ ∀ r ∈ t.rows, d.names.map r = meaningAt (worldOf env) G p d (r idx) := by
  rcases unslice_cases hb with ⟨_, rfl⟩ | ⟨n, hk, hh⟩
  · exact ⟨hc, hr⟩
  · obtain ⟨b', hb', hs, _, hn, _⟩ := slice_wf hw hk
    obtain ⟨h1, h2⟩ := dep_column hw hs hb hc hr
    rw [hs]
    refine ⟨by simpa using h1, fun r hr' => ?_⟩
    have hk' : d.info.kind = .slice n := hk
    have := h2 r hr'
    simp only [one, meaningAt_slice (worldOf env) G p hk, meaningStep, hk', hb', List.map_cons, List.headD_cons] at this
    simp only [meaningAt_slice (worldOf env) G p hk, meaningStep, hk', hb', List.map_cons, List.map_nil, this]

theorem className_kind (f g : Feat) (h : className f = className g) :
    match f.kind, g.kind with
    | .identity _, .identity _ => True
    | .direct _, .direct _ => True
    | .agg _ _ _ _, .agg _ _ _ _ => True
    | .trans _, .trans _ => True
    | .groupby _, .groupby _ => True
    | .slice _, .slice _ => True
    | _, _ => False := by
  revert h
  unfold className
  cases f.kind <;> cases g.kind <;> simp <;> decide

end FT
