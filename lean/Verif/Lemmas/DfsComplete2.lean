import Verif.Lemmas.DfsComplete
namespace FT
open FT.Spec

/-- The visited entities. -/
def DState.keys (st : DState) : List String := st.feats.map Prod.fst

theorem mem_keys {st : DState} {x : String} : x ∈ st.keys ↔ ∃ fs, Lists st x fs := by
  unfold DState.keys Lists
  constructor
  · intro h
    obtain ⟨q, hq, rfl⟩ := List.mem_map.mp h
    cases hl : st.feats.lookup q.1 with
    | some fs => exact ⟨fs, rfl⟩
    | none => rw [List.lookup_eq_none_iff] at hl; simpa using hl q hq
  · rintro ⟨fs, h⟩
    exact List.mem_map.mpr ⟨_, lookup_mem_pair h, rfl⟩

theorem any_keys {st : DState} {x : String} : (st.feats.any fun p => p.1 == x) = true ↔ x ∈ st.keys := by
  simp [DState.keys]

/-- Entities visited before stay as they are. -/
structure Frozen (st st' : DState) : Prop where
  feats : ∀ x ∈ st.keys, st'.feats.lookup x = st.feats.lookup x
  clauses : ∀ x ∈ st.keys, st'.clauses.lookup x = st.clauses.lookup x

theorem Frozen.refl (st : DState) : Frozen st st := ⟨fun _ _ => rfl, fun _ _ => rfl⟩

theorem Frozen.keys {st st' : DState} (h : Frozen st st') : ∀ x ∈ st.keys, x ∈ st'.keys := by
  intro x hx
  obtain ⟨fs, hfs⟩ := mem_keys.mp hx
  exact mem_keys.mpr ⟨fs, (h.feats x hx).trans hfs⟩

theorem Frozen.trans {a b c : DState} (h1 : Frozen a b) (h2 : Frozen b c) : Frozen a c :=
  ⟨fun x hx => (h2.feats x (h1.keys x hx)).trans (h1.feats x hx), fun x hx => (h2.clauses x (h1.keys x hx)).trans (h1.clauses x hx)⟩

theorem Frozen.present {a b : DState} (h : Frozen a b) {x n : String} (hp : Present a x n) : Present b x n := by
  obtain ⟨fs, hfs, r⟩ := hp
  exact ⟨fs, (h.feats x (mem_keys.mpr ⟨fs, hfs⟩)).trans hfs, r⟩

section
variable {S : Synth}

theorem not_cycle {rels : List Relationship} {n : Nat} {e : String} {l : List (String × RelPath)} (h : deepBackwardEntities rels n e = some l) :
    ∀ x ∈ l, x.1 ≠ e := by
  rintro ⟨x, q⟩ hx rfl
  obtain ⟨p, _, hp, hc⟩ := (mem_deepBackward n _ l h x q).mp hx
  have hb := (deepBackward_isSome_iff (rels := rels) n x).mp (by rw [h]; rfl)
  have hlong : ∀ k : Nat, ∃ p', Chain rels x x p' ∧ k ≤ p'.length := by
    intro k
    induction k with
    | zero => exact ⟨p, hc, Nat.zero_le _⟩
    | succ k ih =>
      obtain ⟨p', h1, h2⟩ := ih
      refine ⟨p ++ p', chain_append hc h1, ?_⟩
      have := List.length_pos_iff.mpr hp
      simp only [List.length_append]; omega
  obtain ⟨p', h1, h2⟩ := hlong n
  exact absurd (hb x p' h1) (by omega)

/-- The columns of a visited entity are among its features. -/
def ColsAt (S : Synth) (st : DState) (x : String) : Prop :=
  ∀ d, S.ents.find? (fun d => d.id == x) = some d → ∀ v ∈ d.vars, v.name ∉ S.ignoreVars d.id →
    (identityOf d v).uname ∉ S.seeds.map DFeat.uname → (∀ v' ∈ d.vars, v'.name = v.name → v' = v) → ∃ fs, Lists st x fs ∧ identityOf d v ∈ fs

theorem append_cancel {a b c : String} (h : a ++ b = a ++ c) : b = c := by
  have : a.toList ++ b.toList = a.toList ++ c.toList := by
    rw [← String.toList_append, ← String.toList_append, h]
  exact String.toList_injective (List.append_cancel_left this)

theorem identity_uname {d : DEnt} {v v' : DVar} (h : (identityOf d v').uname = (identityOf d v).uname) : v'.name = v.name :=
  append_cancel h

/-- What the seeds and columns leave behind. -/
def Given (S : Synth) (d : DEnt) (f : DFeat) : Prop := f ∈ S.seeds ∨ ∃ v ∈ d.vars, f = identityOf d v

/-- A seed replaces what has its name. -/
theorem addNew_seed {st st' : DState} {f : DFeat} (hf : f ∈ S.seeds) (h : addNew S st f = .ok st') :
    ∀ fs, Lists st' f.entity fs → ∀ g ∈ fs, g.uname = f.uname → g = f := by
  unfold addNew at h
  split at h
  · cases h
  · next fs0 hfs0 =>
    rw [if_neg (by
      have : (S.seeds.any fun g => g.uname == f.uname) = true := any_uname_iff.mpr ⟨f, hf, rfl⟩
      simp [this])] at h
    cases h
    intro fs hfs g hg hn
    have : fs = putFeature fs0 f := by
      have hl : (setFor st.feats f.entity (putFeature fs0 f)).lookup f.entity = some fs := hfs
      rw [lookup_setFor, if_pos rfl, hfs0] at hl
      exact (Option.some.inj hl).symm
    subst this
    unfold putFeature at hg
    split at hg
    · obtain ⟨g0, _, rfl⟩ := List.mem_map.mp hg
      split at hn
      · next h => rw [if_pos h]
      · next h => exact absurd hn h
    · next hno =>
      rcases List.mem_append.mp hg with hg | hg
      · exact absurd (any_uname_iff.mpr ⟨g, hg, hn⟩) hno
      · simpa using hg

/-- The first step of a visit. -/
theorem addIdentity_adds {d : DEnt} (hd : d ∈ S.ents) {st st' : DState} (h0 : Lists st d.id []) (h : addIdentity S d st = .ok st') :
    Adds S d.id (Given S d) st st' ∧ (S.ents.find? (fun x => x.id == d.id) = some d → ColsAt S st' d.id) ∧
      (∀ f ∈ S.seeds, f.entity = d.id → Present st' d.id f.uname) ∧
      (∀ v ∈ d.vars, v.name ∉ S.ignoreVars d.id → Present st' d.id (identityOf d v).uname) ∧
      (∀ f ∈ S.seeds, f.entity = d.id → ∀ fs, Lists st' d.id fs → ∀ g ∈ fs, g.uname = f.uname → g ∈ S.seeds) := by
  have hl : ∀ f ∈ (d.vars.filter fun v => !(S.ignoreVars d.id).contains v.name).map (identityOf d) ++ S.seeds.filter fun f => f.entity == d.id,
      Fresh S f ∧ Given S d f ∧ f.entity = d.id := by
    intro f hf
    rcases List.mem_append.mp hf with hf | hf
    · obtain ⟨v, hv, rfl⟩ := List.mem_map.mp hf
      exact ⟨.identity d v hd (List.mem_filter.mp hv).1, .inr ⟨v, (List.mem_filter.mp hv).1, rfl⟩, rfl⟩
    · obtain ⟨h1, h2⟩ := List.mem_filter.mp hf
      exact ⟨.seed f h1, .inl h1, by simpa using h2⟩
  obtain ⟨h1, h2⟩ := addAll_adds hl h
  refine ⟨h1, fun hfind d' hd' v hv hi hs hu => ?_, fun f hf he => ?_, fun v hv hi => ?_, ?_⟩
  · have : d' = d := Option.some.inj (hd'.symm.trans hfind)
    subst this
    have hv' : v ∈ d'.vars.filter fun v => !(S.ignoreVars d'.id).contains v.name := List.mem_filter.mpr ⟨hv, by simpa using hi⟩
    obtain ⟨l1, l2, hl12, hnot⟩ := List.eq_append_cons_of_mem hv'
    unfold addIdentity at h
    rw [hl12] at h
    simp only [List.map_append, List.map_cons, List.append_assoc, List.cons_append] at h
    obtain ⟨s1, hs1, h⟩ := foldE_append h
    have hsub : ∀ v' ∈ l1, v' ∈ d'.vars := fun v' hv' => (List.mem_filter.mp (by rw [hl12]; exact List.mem_append_left _ hv')).1
    have ha1 : ∀ fs, Lists s1 d'.id fs → ∀ f ∈ fs, ∃ v' ∈ l1, f = identityOf d' v' := by
      obtain ⟨a1, _⟩ := addAll_adds (K := fun f => ∃ v' ∈ l1, f = identityOf d' v') (e := d'.id) (fun f hf => by
        obtain ⟨v', hv', rfl⟩ := List.mem_map.mp hf
        exact ⟨.identity d' v' hd (hsub v' hv'), ⟨v', hv', rfl⟩, rfl⟩) hs1
      obtain ⟨fs', l, _, _, k⟩ := a1.own [] h0
      intro fs hfs f hf
      have : fs = fs' := Option.some.inj (hfs.symm.trans l)
      subst this
      exact (k f hf).resolve_left (by simp)
    simp only [foldE] at h
    cases hv1 : addNew S s1 (identityOf d' v) with
    | error er => rw [hv1] at h; cases h
    | ok s2 =>
      rw [hv1] at h
      obtain ⟨_, _, hin⟩ := addNew_adds (K := Given S d') (e := d'.id) (.identity d' v hd hv) (.inr ⟨v, hv, rfl⟩) rfl hv1
      have hnp : ¬Present s1 d'.id (identityOf d' v).uname := by
        rintro ⟨fs, hfs, g, hg, hgn⟩
        obtain ⟨v', hv', rfl⟩ := ha1 fs hfs g hg
        exact hnot (hu v' (hsub v' hv') (identity_uname hgn) ▸ hv')
      obtain ⟨fs, hfs, hfin⟩ := hin hnp
      obtain ⟨a3, _⟩ := addAll_adds (K := fun _ => True) (e := d'.id) (fun f hf => by
        have := hl f (by
          rw [hl12]
          simp only [List.map_append, List.map_cons, List.append_assoc, List.cons_append]
          exact List.mem_append_right _ (List.mem_cons_of_mem _ hf))
        exact ⟨this.1, trivial, this.2.2⟩) h
      obtain ⟨fs', l, k, _, _⟩ := a3.own fs hfs
      exact ⟨fs', l, k _ hfin (.inl hs)⟩
  · exact h2 f (List.mem_append_right _ (List.mem_filter.mpr ⟨hf, by simpa using he⟩))
  · exact h2 _ (List.mem_append_left _ (List.mem_map.mpr ⟨v, List.mem_filter.mpr ⟨hv, by simpa using hi⟩, rfl⟩))
  · intro f hf he fs hfs g hg hn
    obtain ⟨s1, _, h⟩ := foldE_append h
    have hfm : f ∈ S.seeds.filter fun f => f.entity == d.id := List.mem_filter.mpr ⟨hf, by simpa using he⟩
    obtain ⟨l1, l2, hl12⟩ := List.append_of_mem hfm
    rw [hl12] at h
    obtain ⟨s2, _, h⟩ := foldE_append h
    simp only [foldE] at h
    cases h1 : addNew S s2 f with
    | error er => rw [h1] at h; cases h
    | ok s3 =>
      rw [h1] at h
      obtain ⟨a, _⟩ := addAll_adds (K := fun g => g ∈ S.seeds) (e := d.id) (fun g hg => by
        obtain ⟨x1, x2⟩ := List.mem_filter.mp (by rw [hl12]; exact List.mem_append_right _ (List.mem_cons_of_mem _ hg) : g ∈ S.seeds.filter fun f => f.entity == d.id)
        exact ⟨.seed g x1, x1, by simpa using x2⟩) h
      have hk : d.id ∈ s3.keys := by
        show d.id ∈ s3.feats.map Prod.fst
        rw [← a.keys]
        exact mem_keys.mpr ⟨fs, hfs⟩
      obtain ⟨fs3, hfs3⟩ := mem_keys.mp hk
      obtain ⟨fs', l, _, _, k⟩ := a.own fs3 hfs3
      have : fs = fs' := Option.some.inj (hfs.symm.trans l)
      subst this
      rcases k g hg with hg3 | hg3
      · exact addNew_seed hf h1 fs3 (he ▸ hfs3) g hg3 hn ▸ hf
      · exact hg3

/-- A visit, step by step. -/
structure Stages (S : Synth) (run : DState → String → RelPath → Option Int → Except DfsErr DState) (st : DState) (e : String)
    (path : RelPath) (m : Option Int) (st' : DState) (d : DEnt) (s1 s2 s3 s4 s5 s6 s7 : DState) : Prop where
  found : S.ents.find? (fun d => d.id == e) = some d
  identity : addIdentity S d { st with feats := (e, []) :: st.feats } = .ok s1
  backward : visitAll S run path m s1 (getBackwardEntities S.rels e) = .ok s2
  aggs : aggAll S e path m s2 = .ok s3
  trans : buildTransform S e m false s3 = .ok s4
  forward : visitAll S run path m s4 (getForwardEntities S.rels e) = .ok s5
  direct : directAll S e path m s5 = .ok s6
  trans2 : buildTransform S e m true s6 = .ok s7
  last : st' = buildClauses S e s7

theorem visit_stages {run : DState → String → RelPath → Option Int → Except DfsErr DState} {st st' : DState} {e : String}
    {path : RelPath} {m : Option Int} (hx : exhausted m = false) (h : visit S run st e path m = .ok st') :
    ∃ d s1 s2 s3 s4 s5 s6 s7, Stages S run st e path m st' d s1 s2 s3 s4 s5 s6 s7 := by
  unfold visit at h
  rw [if_neg (by simp [hx])] at h
  split at h
  · cases h
  · next d hd =>
    split at h
    · cases h
    · next s1 h1 =>
      split at h
      · cases h
      · next s2 h2 =>
        split at h
        · cases h
        · next s4 h4 =>
          unfold middleSteps at h4
          split at h4
          · cases h4
          · next s3 h3 =>
            split at h
            · cases h
            · next s5 h5 =>
              unfold lastSteps at h
              split at h
              · cases h
              · next s6 h6 =>
                split at h
                · cases h
                · next s7 h7 =>
                  cases h
                  exact ⟨d, s1, s2, s3, s4, s5, s6, s7, hd, h1, h2, h3, h4, h5, h6, h7, rfl⟩

/-- A step that adds to `e` leaves other entities alone. -/
theorem Adds.others {e : String} {K : DFeat → Prop} {a b : DState} (h : Adds S e K a b) :
    (∀ x, x ≠ e → b.feats.lookup x = a.feats.lookup x) ∧ b.clauses = a.clauses ∧ b.keys = a.keys := ⟨h.other, h.clauses, h.keys⟩

/-- What a completed visit leaves for an entity. -/
structure Done (S : Synth) (st : DState) (x : String) : Prop where
  known : ∃ d, S.ents.find? (fun d => d.id == x) = some d
  cols : ColsAt S st x
  clauses : ∀ fs, Lists st x fs → st.clauses.lookup x = some (newClauses S fs)

theorem Done.frozen {a b : DState} (h : Frozen a b) {x : String} (hx : x ∈ a.keys) (hd : Done S a x) : Done S b x := by
  refine ⟨hd.known, fun d hd' v hv hi hs hu => ?_, fun fs hfs => ?_⟩
  · obtain ⟨fs, hfs, hm⟩ := hd.cols d hd' v hv hi hs hu
    exact ⟨fs, (h.feats x hx).trans hfs, hm⟩
  · rw [h.clauses x hx]
    exact hd.clauses fs ((h.feats x hx).symm.trans hfs)

/-- What is known of a visit of `e`: entities visited before stay, the new ones are done. -/
structure Visited (S : Synth) (st st' : DState) : Prop where
  frozen : Frozen st st'
  done : ∀ x ∈ st'.keys, x ∉ st.keys → Done S st' x

theorem Visited.trans {a b c : DState} (h1 : Visited S a b) (h2 : Visited S b c) : Visited S a c := by
  refine ⟨h1.frozen.trans h2.frozen, fun x hx hn => ?_⟩
  by_cases hb : x ∈ b.keys
  · exact (h1.done x hb hn).frozen h2.frozen hb
  · exact h2.done x hx hb

def RunOk (S : Synth) (run : DState → String → RelPath → Option Int → Except DfsErr DState) : Prop :=
  ∀ st st' e path m, e ∉ st.keys → run st e path m = .ok st' → Visited S st st' ∧ (exhausted m = false → e ∈ st'.keys)

theorem visitAll_visited {run : DState → String → RelPath → Option Int → Except DfsErr DState} (hrun : RunOk S run) {path : RelPath} {m : Option Int} :
    ∀ {l : List (String × RelPath)} {st st' : DState}, visitAll S run path m st l = .ok st' →
      Visited S st st' ∧ (exhausted (lower1 m) = false → ∀ x ∈ l, allowedVia S path x = true → x.1 ∈ st'.keys)
  | [], st, st', h => by
    simp only [visitAll, foldE] at h; cases h
    exact ⟨⟨.refl _, fun x hx hn => absurd hx hn⟩, by simp⟩
  | x :: l, st, st', h => by
    simp only [visitAll, foldE] at h
    split at h
    · next s1 hs1 =>
      obtain ⟨v2, k2⟩ := visitAll_visited hrun (l := l) h
      split at hs1
      · next hc =>
        cases hs1
        refine ⟨v2, fun hx y hy ha => ?_⟩
        rcases List.mem_cons.mp hy with rfl | hy
        · simp only [Bool.or_eq_true, ha, Bool.not_true, Bool.false_eq_true, or_false] at hc
          exact v2.frozen.keys _ (any_keys.mp hc)
        · exact k2 hx y hy ha
      · next hc =>
        simp only [Bool.or_eq_true, not_or] at hc
        obtain ⟨v1, k1⟩ := hrun st s1 x.1 (path ++ x.2) (lower1 m) (fun h => hc.1 (any_keys.mpr h)) hs1
        refine ⟨v1.trans v2, fun hx y hy ha => ?_⟩
        rcases List.mem_cons.mp hy with rfl | hy
        · exact v2.frozen.keys _ (k1 hx)
        · exact k2 hx y hy ha
    · cases h

/-- The states of a visit: what is there of the entity itself, and that everything else is untouched or done. -/
structure Course (S : Synth) (st : DState) (e : String) (m : Option Int) (path : RelPath) (st' : DState) (d : DEnt) (s1 s2 s3 s4 s5 s6 s7 : DState) : Prop where
  a1 : Adds S e (Given S d) { st with feats := (e, []) :: st.feats } s1
  v2 : Visited S s1 s2
  k2 : exhausted (lower1 m) = false → ∀ x ∈ getBackwardEntities S.rels e, allowedVia S path x = true → x.1 ∈ s2.keys
  a3 : Adds S e IsAggF s2 s3
  a4 : Adds S e Later s3 s4
  v5 : Visited S s4 s5
  k5 : exhausted (lower1 m) = false → ∀ x ∈ getForwardEntities S.rels e, allowedVia S path x = true → x.1 ∈ s5.keys
  a6 : Adds S e IsDirect s5 s6
  a7 : Adds S e Later s6 s7
  last : st' = buildClauses S e s7
  own : e ∈ s1.keys
  cols : ColsAt S s1 e
  known : S.ents.find? (fun d => d.id == e) = some d

theorem Stages.course {run : DState → String → RelPath → Option Int → Except DfsErr DState} (hrun : RunOk S run) {st st' : DState} {e : String}
    {path : RelPath} {m : Option Int} {d : DEnt} {s1 s2 s3 s4 s5 s6 s7 : DState} (h : Stages S run st e path m st' d s1 s2 s3 s4 s5 s6 s7) :
    Course S st e m path st' d s1 s2 s3 s4 s5 s6 s7 := by
  obtain ⟨hd, hde⟩ := find_ent h.found
  have h0 : Lists { st with feats := (e, []) :: st.feats } d.id [] := by subst hde; simp [Lists]
  obtain ⟨a1, c1, _, _, _⟩ := addIdentity_adds hd h0 h.identity
  obtain ⟨l, hl, h3⟩ := aggAll_adds h.aggs
  obtain ⟨v2, k2⟩ := visitAll_visited hrun h.backward
  obtain ⟨v5, k5⟩ := visitAll_visited hrun h.forward
  subst hde
  exact ⟨a1, v2, k2, (h3 (not_cycle hl)).1, (buildTransform_adds h.trans).1, v5, k5, (directAll_adds h.direct).1, (buildTransform_adds h.trans2).1, h.last,
    by rw [a1.others.2.2]; simp [DState.keys], c1 h.found, h.found⟩

theorem Adds.frozenBut {e : String} {K : DFeat → Prop} {a b : DState} (h : Adds S e K a b) (x : String) (hx : x ≠ e) (hk : x ∈ a.keys) :
    x ∈ b.keys ∧ b.feats.lookup x = a.feats.lookup x ∧ b.clauses.lookup x = a.clauses.lookup x :=
  ⟨by rw [h.others.2.2]; exact hk, h.other x hx, by rw [h.clauses]⟩

theorem Adds.cols {e : String} {K : DFeat → Prop} {a b : DState} (h : Adds S e K a b) {x : String} (hc : ColsAt S a x) : ColsAt S b x := by
  intro d hd v hv hi hs hu
  obtain ⟨fs, hfs, hm⟩ := hc d hd v hv hi hs hu
  by_cases hx : x = e
  · subst hx
    obtain ⟨fs', l, k, _, _⟩ := h.own fs hfs
    exact ⟨fs', l, k _ hm (.inl hs)⟩
  · exact ⟨fs, (h.other x hx).trans hfs, hm⟩

theorem Adds.done {e : String} {K : DFeat → Prop} {a b : DState} (h : Adds S e K a b) {x : String} (hx : x ≠ e) (hd : Done S a x) : Done S b x :=
  ⟨hd.known, h.cols hd.cols, fun fs hfs => by
    rw [h.clauses]
    exact hd.clauses fs ((h.other x hx).symm.trans hfs)⟩

theorem Frozen.cols {a b : DState} (h : Frozen a b) {x : String} (hx : x ∈ a.keys) (hc : ColsAt S a x) : ColsAt S b x := by
  intro d hd v hv hi hs hu
  obtain ⟨fs, hfs, hm⟩ := hc d hd v hv hi hs hu
  exact ⟨fs, (h.feats x hx).trans hfs, hm⟩

theorem Course.visited {st st' : DState} {e : String} {m : Option Int} {path : RelPath} {d : DEnt} {s1 s2 s3 s4 s5 s6 s7 : DState}
    (h : Course S st e m path st' d s1 s2 s3 s4 s5 s6 s7) (he : e ∉ st.keys) : Visited S st st' ∧ e ∈ st'.keys := by
  have hk1 : ∀ x, x ∈ s1.keys ↔ x = e ∨ x ∈ st.keys := by
    intro x; rw [h.a1.others.2.2]; simp [DState.keys]
  have k3 : s3.keys = s2.keys := h.a3.others.2.2
  have k4 : s4.keys = s3.keys := h.a4.others.2.2
  have k6 : s6.keys = s5.keys := h.a6.others.2.2
  have k7 : s7.keys = s6.keys := h.a7.others.2.2
  have hkeys : st'.keys = s5.keys := by rw [h.last]; show s7.keys = _; rw [k7, k6]
  have e2 : e ∈ s2.keys := h.v2.frozen.keys e h.own
  have e4 : e ∈ s4.keys := by rw [k4, k3]; exact e2
  have e5 : e ∈ s5.keys := h.v5.frozen.keys e e4
  have hclause : ∀ x, x ≠ e → st'.clauses.lookup x = s7.clauses.lookup x := by
    intro x hx
    rw [h.last]
    show List.lookup x ((e, _) :: s7.clauses) = _
    rw [List.lookup_cons]
    have : (x == e) = false := by simpa using hx
    rw [this]
  have hfeats : st'.feats = s7.feats := by rw [h.last]; rfl
  -- entities other than `e` after `s2` and after `s5`
  have from5 : ∀ x, x ≠ e → st'.feats.lookup x = s5.feats.lookup x ∧ st'.clauses.lookup x = s5.clauses.lookup x := by
    intro x hx
    refine ⟨by rw [hfeats, h.a7.other x hx, h.a6.other x hx], by rw [hclause x hx, h.a7.clauses, h.a6.clauses]⟩
  have from2 : ∀ x ∈ s2.keys, x ≠ e → s5.feats.lookup x = s2.feats.lookup x ∧ s5.clauses.lookup x = s2.clauses.lookup x := by
    intro x hk hx
    have hk4 : x ∈ s4.keys := by rw [k4, k3]; exact hk
    exact ⟨by rw [h.v5.frozen.feats x hk4, h.a4.other x hx, h.a3.other x hx], by rw [h.v5.frozen.clauses x hk4, h.a4.clauses, h.a3.clauses]⟩
  have done5 : ∀ x ∈ s5.keys, x ≠ e → x ∉ st.keys → Done S st' x := by
    intro x hx hxe hn
    have d5 : Done S s5 x := by
      by_cases hx2 : x ∈ s2.keys
      · have d2 := h.v2.done x hx2 (fun hc => ((hk1 x).mp hc).elim hxe hn)
        exact ((d2 |> h.a3.done hxe) |> h.a4.done hxe).frozen h.v5.frozen (by rw [k4, k3]; exact hx2)
      · exact h.v5.done x hx (by rw [k4, k3]; exact hx2)
    have d7 := h.a7.done hxe (h.a6.done hxe d5)
    exact ⟨d7.known, fun d hd v hv hi hs hu => by
      obtain ⟨fs, hfs, hm⟩ := d7.cols d hd v hv hi hs hu
      exact ⟨fs, by show st'.feats.lookup x = _; rw [hfeats]; exact hfs, hm⟩, fun fs hfs => by
      rw [hclause x hxe]
      exact d7.clauses fs (by show s7.feats.lookup x = _; rw [← hfeats]; exact hfs)⟩
  refine ⟨⟨⟨fun x hx => ?_, fun x hx => ?_⟩, fun x hx hn => ?_⟩, by rw [hkeys]; exact e5⟩
  · have hxe : x ≠ e := fun h => he (h ▸ hx)
    have hx1 : x ∈ s1.keys := (hk1 x).mpr (.inr hx)
    rw [(from5 x hxe).1, (from2 x (h.v2.frozen.keys x hx1) hxe).1, h.v2.frozen.feats x hx1, h.a1.other x hxe]
    show List.lookup x ((e, []) :: st.feats) = _
    rw [List.lookup_cons]
    have : (x == e) = false := by simpa using hxe
    rw [this]
  · have hxe : x ≠ e := fun h => he (h ▸ hx)
    have hx1 : x ∈ s1.keys := (hk1 x).mpr (.inr hx)
    rw [(from5 x hxe).2, (from2 x (h.v2.frozen.keys x hx1) hxe).2, h.v2.frozen.clauses x hx1, h.a1.clauses]
  · by_cases hxe : x = e
    · subst hxe
      refine ⟨⟨d, h.known⟩, ?_, fun fs hfs => ?_⟩
      · have c7 : ColsAt S s7 x := h.a7.cols (h.a6.cols (h.v5.frozen.cols e4 (h.a4.cols (h.a3.cols (h.v2.frozen.cols h.own h.cols)))))
        intro d hd v hv hi hs hu
        obtain ⟨fs, hfs, hm⟩ := c7 d hd v hv hi hs hu
        exact ⟨fs, by show st'.feats.lookup x = _; rw [hfeats]; exact hfs, hm⟩
      · have hfs' : s7.feats.lookup x = some fs := by rw [← hfeats]; exact hfs
        rw [h.last]
        show List.lookup x ((x, newClauses S ((s7.feats.lookup x).getD [])) :: s7.clauses) = _
        rw [hfs']
        simp
    · exact done5 x (hkeys ▸ hx) hxe hn

/-- What the neighbours below have at the start of the aggregation step, they have at the end. -/
theorem Course.kept2 {st st' : DState} {e : String} {m : Option Int} {path : RelPath} {d : DEnt} {s1 s2 s3 s4 s5 s6 s7 : DState}
    (h : Course S st e m path st' d s1 s2 s3 s4 s5 s6 s7) : ∀ x ∈ s2.keys, x ≠ e →
      st'.feats.lookup x = s2.feats.lookup x ∧ st'.clauses.lookup x = s2.clauses.lookup x := by
  intro x hk hx
  have hk4 : x ∈ s4.keys := by rw [h.a4.others.2.2, h.a3.others.2.2]; exact hk
  rw [h.last]
  refine ⟨?_, ?_⟩
  · show s7.feats.lookup x = _
    rw [h.a7.other x hx, h.a6.other x hx, h.v5.frozen.feats x hk4, h.a4.other x hx, h.a3.other x hx]
  · show List.lookup x ((e, _) :: s7.clauses) = _
    rw [List.lookup_cons]
    have : (x == e) = false := by simpa using hx
    rw [this, h.a7.clauses, h.a6.clauses, h.v5.frozen.clauses x hk4, h.a4.clauses, h.a3.clauses]

theorem Course.kept5 {st st' : DState} {e : String} {m : Option Int} {path : RelPath} {d : DEnt} {s1 s2 s3 s4 s5 s6 s7 : DState}
    (h : Course S st e m path st' d s1 s2 s3 s4 s5 s6 s7) : ∀ x, x ≠ e → st'.feats.lookup x = s5.feats.lookup x := by
  intro x hx
  rw [h.last]
  show s7.feats.lookup x = _
  rw [h.a7.other x hx, h.a6.other x hx]

theorem runDfs_ok : ∀ n, RunOk S (runDfs S n)
  | 0 => fun _ _ _ _ _ _ h => by cases h
  | n + 1 => by
    intro st st' e path m he h
    by_cases hx : exhausted m = true
    · simp only [runDfs, visit, if_pos hx] at h
      cases h
      exact ⟨⟨.refl _, fun x hx hn => absurd hx hn⟩, fun h => by rw [hx] at h; cases h⟩
    · simp only [Bool.not_eq_true] at hx
      obtain ⟨d, s1, s2, s3, s4, s5, s6, s7, hs⟩ := visit_stages hx h
      have := (hs.course (runDfs_ok n)).visited he
      exact ⟨this.1, fun _ => this.2⟩

end
end FT
